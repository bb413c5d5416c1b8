import Verif.Proof.FileDecls
/-! # Tags and paths in literals (C19): no control characters -/

namespace Gopoet

/-- A byte that is neither that of a control character (which a tab is not) nor DEL. -/
def Visible8 (b : UInt8) : Prop := (32 ≤ b.toNat ∧ b.toNat ≠ 127) ∨ b = 9

theorem lowerHex_visible {n : Nat} (h : n < 16) : Visible8 (lowerHex n) := by
  have : ∀ n < 16, 32 ≤ (lowerHex n).toNat ∧ (lowerHex n).toNat ≠ 127 := by decide
  exact .inl (this n h)

theorem encodeScalar_visible {r : Nat} (hr : isScalar r = true) (h : 32 ≤ r) (h7 : r ≠ 127) : ∀ b ∈ encodeScalar r, Visible8 b := by
  intro b hb
  by_cases h80 : r < 0x80
  · rw [encodeScalar_ascii h80, List.mem_singleton] at hb
    subst hb
    left
    rw [toNat_ofNat_lt (by omega)]
    exact ⟨h, h7⟩
  · have := encodeScalar_high hr (by omega) b hb
    exact .inl ⟨by omega, by omega⟩

theorem escapeRune_visible (tbl : Nat → Bool) {r : Nat} (hr : isScalar r = true) : ∀ b ∈ escapeRune tbl r, Visible8 b := by
  have hm : ∀ n, Visible8 (lowerHex (n % 16)) := fun n => lowerHex_visible (Nat.mod_lt _ (by omega))
  have hx : ∀ {a b : UInt8}, 32 ≤ a.toNat ∧ a.toNat ≠ 127 → 32 ≤ b.toNat ∧ b.toNat ≠ 127 → ∀ x ∈ [a, b], Visible8 x := by
    intro a b h1 h2 x hx
    simp only [List.mem_cons, List.not_mem_nil, or_false] at hx
    rcases hx with rfl | rfl
    · exact .inl h1
    · exact .inl h2
  rw [escapeRune]
  by_cases h1 : r = 34 ∨ r = 92
  · rw [if_pos h1]; rcases h1 with rfl | rfl <;> exact hx (by decide) (by decide)
  rw [if_neg h1]
  by_cases hp : isPrint tbl r = true
  · rw [if_pos hp, encodeRune, if_pos hr]
    refine encodeScalar_visible hr ?_ ?_
    · by_contra hlt
      have : r ≤ 255 := by omega
      rw [isPrint, if_pos this] at hp
      simp at hp
      omega
    · rintro rfl
      simp [isPrint] at hp
  rw [if_neg hp]
  by_cases h7 : r = 7
  · rw [if_pos h7]; exact hx (by decide) (by decide)
  rw [if_neg h7]
  by_cases h8 : r = 8
  · rw [if_pos h8]; exact hx (by decide) (by decide)
  rw [if_neg h8]
  by_cases h12 : r = 12
  · rw [if_pos h12]; exact hx (by decide) (by decide)
  rw [if_neg h12]
  by_cases h10 : r = 10
  · rw [if_pos h10]; exact hx (by decide) (by decide)
  rw [if_neg h10]
  by_cases h13 : r = 13
  · rw [if_pos h13]; exact hx (by decide) (by decide)
  rw [if_neg h13]
  by_cases h9 : r = 9
  · rw [if_pos h9]; exact hx (by decide) (by decide)
  rw [if_neg h9]
  by_cases h11 : r = 11
  · rw [if_pos h11]; exact hx (by decide) (by decide)
  rw [if_neg h11]
  by_cases h2 : r < 32 ∨ r = 0x7F
  · rw [if_pos h2]
    intro b hb
    simp only [List.mem_cons, List.not_mem_nil, or_false] at hb
    rcases hb with rfl | rfl | rfl | rfl
    · exact .inl (by decide)
    · exact .inl (by decide)
    · exact lowerHex_visible (by omega)
    · exact hm _
  · rw [if_neg h2, if_pos hr]
    dsimp only
    by_cases h3 : r < 0x10000
    · rw [if_pos h3]
      intro b hb
      simp only [List.mem_cons, List.not_mem_nil, or_false] at hb
      rcases hb with rfl | rfl | rfl | rfl | rfl | rfl
      · exact .inl (by decide)
      · exact .inl (by decide)
      all_goals exact hm _
    · rw [if_neg h3]
      intro b hb
      simp only [List.mem_cons, List.not_mem_nil, or_false] at hb
      rcases hb with rfl | rfl | rfl | rfl | rfl | rfl | rfl | rfl | rfl | rfl
      · exact .inl (by decide)
      · exact .inl (by decide)
      all_goals exact hm _

theorem quoteLoop_visible (tbl : Nat → Bool) : ∀ (fuel : Nat) (s : GoString), ∀ b ∈ quoteLoop tbl fuel s, Visible8 b
  | 0, _ => by simp [quoteLoop]
  | _ + 1, [] => by simp [quoteLoop]
  | fuel + 1, b :: s => by
    rw [quoteLoop]
    rcases decodeRune_spec b s with he | ⟨r, t, hr, ht, he⟩
    · rw [he]
      have hb := b.toNat_lt
      have h1 := lowerHex_visible (n := b.toNat / 16) (by omega)
      have h2 := lowerHex_visible (n := b.toNat % 16) (by omega)
      simp only [and_self, if_true]
      intro x hx
      simp only [List.mem_append, List.mem_cons, List.not_mem_nil, or_false] at hx
      rcases hx with (rfl | rfl | rfl | rfl) | hx
      · exact .inl (by decide)
      · exact .inl (by decide)
      · exact h1
      · exact h2
      · exact quoteLoop_visible tbl fuel s x hx
    · rw [he]
      dsimp only
      rw [if_neg not_error_of_scalar]
      intro x hx
      rcases List.mem_append.1 hx with hx | hx
      · exact escapeRune_visible tbl hr x hx
      · exact quoteLoop_visible tbl fuel _ x hx

theorem canBackquoteLoop_visible : ∀ (fuel : Nat) (s : GoString), s.length ≤ fuel → canBackquoteLoop fuel s = true → ∀ b ∈ s, Visible8 b
  | _, [], _, _ => by simp
  | 0, _ :: _, h, _ => by simp at h
  | fuel + 1, b :: s, h, hc => by
    simp only [List.length_cons, Nat.add_le_add_iff_right] at h
    rw [canBackquoteLoop] at hc
    rcases decodeRune_spec b s with he | ⟨r, t, hr, ht, he⟩
    · rw [he] at hc; simp at hc
    · rw [he] at hc
      dsimp only at hc
      have hlen : t.length ≤ fuel := by
        have := congrArg List.length ht
        have hp := encodeScalar_length_pos r
        simp only [List.length_cons, List.length_append] at this
        omega
      rw [drop_of_eq_append ht] at hc
      by_cases h80 : r < 0x80
      · have h1 : (encodeScalar r).length = 1 := by rw [encodeScalar_ascii h80]; rfl
        rw [encodeScalar_ascii h80] at ht
        simp only [List.cons_append, List.nil_append, List.cons.injEq] at ht
        obtain ⟨rfl, rfl⟩ := ht
        rw [h1] at hc
        simp only [gt_iff_lt, Nat.lt_irrefl, if_false] at hc
        split at hc
        · cases hc
        split at hc
        · cases hc
        rename_i hbad
        intro x hx
        rcases List.mem_cons.1 hx with rfl | hx
        · have htn := toNat_ofNat_lt (by omega : r < 256)
          by_cases h9 : r = 9
          · right
            rw [h9]
            rfl
          · left
            rw [htn]
            omega
        · exact canBackquoteLoop_visible fuel s h hc x hx
      · have h2 : ∀ x ∈ encodeScalar r, Visible8 x := encodeScalar_visible hr (by omega) (by omega)
        rw [ht]
        intro x hx
        rcases List.mem_append.1 hx with hx | hx
        · exact h2 x hx
        · split at hc
          · split at hc
            · cases hc
            · exact canBackquoteLoop_visible fuel t hlen hc x hx
          · rename_i hw
            exfalso
            have : 2 ≤ (encodeScalar r).length := by
              unfold encodeScalar
              rw [if_neg (by omega)]
              repeat' split
              all_goals simp
            omega

/-- C19: the literal for a tag has no control characters but tabs, whatever bytes are in the tag. -/
theorem C19_no_control (tbl : Nat → Bool) (tag : GoString) : ∀ b ∈ tagText tbl tag, Visible8 b := by
  rw [tagText]
  split
  · rename_i h
    intro b hb
    simp only [List.mem_append, List.mem_cons, List.not_mem_nil, or_false] at hb
    rcases hb with (rfl | hb) | rfl
    · exact .inl (by decide)
    · exact canBackquoteLoop_visible _ _ (Nat.le_refl _) h b hb
    · exact .inl (by decide)
  · intro b hb
    rw [quote] at hb
    simp only [List.mem_cons, List.mem_append, List.cons_append, List.not_mem_nil, or_false] at hb
    rcases hb with rfl | hb | rfl
    · exact .inl (by decide)
    · exact quoteLoop_visible tbl _ _ b hb
    · exact .inl (by decide)

example : tagText (fun _ => true) [97, 127, 9, 98] = b! "\"a\\x7f\\tb\"" ∧ tagText (fun _ => true) [97, 9, 98] = [96, 97, 9, 98, 96] := by decide

/-- The characters that Unicode calls printable, and the blank; `tbl` is Unicode's table from U+0100 on. -/
def Printable (tbl : Nat → Bool) (r : Nat) : Prop :=
  if r < 0x100 then ¬ (r < 0x20 ∨ 0x7F ≤ r ∧ r < 0xA0) ∧ r ≠ 0xA0 ∧ r ≠ 0xAD else tbl r = true

/-- The text consists of printable characters. -/
def PrintableText (tbl : Nat → Bool) (s : GoString) : Prop :=
  ∃ rs : List Nat, (∀ r ∈ rs, isScalar r = true ∧ Printable tbl r) ∧ s = rs.flatMap encodeScalar

theorem PrintableText.append {tbl : Nat → Bool} {s t : GoString} (h1 : PrintableText tbl s) (h2 : PrintableText tbl t) :
    PrintableText tbl (s ++ t) := by
  obtain ⟨a, h1, rfl⟩ := h1
  obtain ⟨b, h2, rfl⟩ := h2
  exact ⟨a ++ b, fun r hr => (List.mem_append.1 hr).elim (h1 r) (h2 r), by simp⟩

theorem printableText_ascii {tbl : Nat → Bool} : ∀ {s : GoString}, (∀ b ∈ s, 32 ≤ b.toNat ∧ b.toNat < 127) → PrintableText tbl s
  | [], _ => ⟨[], by simp, rfl⟩
  | b :: s, h => by
    have hb := h b (by simp)
    refine PrintableText.append (s := [b]) ⟨[b.toNat], ?_, ?_⟩ (printableText_ascii fun x hx => h x (by simp [hx]))
    · intro r hr
      simp only [List.mem_singleton] at hr
      subst hr
      refine ⟨by simp [isScalar]; omega, ?_⟩
      rw [Printable, if_pos (by omega)]
      omega
    · simp [encodeScalar, show b.toNat < 128 by omega]

theorem lowerHex_plain {n : Nat} (h : n < 16) : 32 ≤ (lowerHex n).toNat ∧ (lowerHex n).toNat < 127 := by
  have : ∀ n < 16, 32 ≤ (lowerHex n).toNat ∧ (lowerHex n).toNat < 127 := by decide
  exact this n h

theorem isPrint_iff {tbl : Nat → Bool} {r : Nat} : isPrint tbl r = true ↔ Printable tbl r := by
  rw [isPrint, Printable]
  by_cases h : r ≤ 0xFF
  · rw [if_pos h, if_pos (by omega)]
    simp
    omega
  · rw [if_neg h, if_neg (by omega)]

theorem escapeRune_printable (tbl : Nat → Bool) {r : Nat} (hr : isScalar r = true) : PrintableText tbl (escapeRune tbl r) := by
  have hm : ∀ n, 32 ≤ (lowerHex (n % 16)).toNat ∧ (lowerHex (n % 16)).toNat < 127 := fun n => lowerHex_plain (Nat.mod_lt _ (by omega))
  rw [escapeRune]
  by_cases h1 : r = 34 ∨ r = 92
  · rw [if_pos h1]; rcases h1 with rfl | rfl <;> exact printableText_ascii (by decide)
  rw [if_neg h1]
  by_cases hp : isPrint tbl r = true
  · rw [if_pos hp, encodeRune, if_pos hr]
    exact ⟨[r], by simpa [hr] using isPrint_iff.1 hp, by simp⟩
  rw [if_neg hp]
  by_cases h7 : r = 7
  · rw [if_pos h7]; exact printableText_ascii (by decide)
  rw [if_neg h7]
  by_cases h8 : r = 8
  · rw [if_pos h8]; exact printableText_ascii (by decide)
  rw [if_neg h8]
  by_cases h12 : r = 12
  · rw [if_pos h12]; exact printableText_ascii (by decide)
  rw [if_neg h12]
  by_cases h10 : r = 10
  · rw [if_pos h10]; exact printableText_ascii (by decide)
  rw [if_neg h10]
  by_cases h13 : r = 13
  · rw [if_pos h13]; exact printableText_ascii (by decide)
  rw [if_neg h13]
  by_cases h9 : r = 9
  · rw [if_pos h9]; exact printableText_ascii (by decide)
  rw [if_neg h9]
  by_cases h11 : r = 11
  · rw [if_pos h11]; exact printableText_ascii (by decide)
  rw [if_neg h11]
  by_cases h2 : r < 32 ∨ r = 0x7F
  · rw [if_pos h2]
    refine printableText_ascii fun b hb => ?_
    simp only [List.mem_cons, List.not_mem_nil, or_false] at hb
    rcases hb with rfl | rfl | rfl | rfl
    · decide
    · decide
    · exact lowerHex_plain (by omega)
    · exact hm _
  · rw [if_neg h2, if_pos hr]
    dsimp only
    by_cases h3 : r < 0x10000
    · rw [if_pos h3]
      refine printableText_ascii fun b hb => ?_
      simp only [List.mem_cons, List.not_mem_nil, or_false] at hb
      rcases hb with rfl | rfl | rfl | rfl | rfl | rfl
      · decide
      · decide
      all_goals exact hm _
    · rw [if_neg h3]
      refine printableText_ascii fun b hb => ?_
      simp only [List.mem_cons, List.not_mem_nil, or_false] at hb
      rcases hb with rfl | rfl | rfl | rfl | rfl | rfl | rfl | rfl | rfl | rfl
      · decide
      · decide
      all_goals exact hm _

theorem quoteLoop_printable (tbl : Nat → Bool) : ∀ (fuel : Nat) (s : GoString), PrintableText tbl (quoteLoop tbl fuel s)
  | 0, _ => ⟨[], by simp, rfl⟩
  | _ + 1, [] => ⟨[], by simp, rfl⟩
  | fuel + 1, b :: s => by
    rw [quoteLoop]
    rcases decodeRune_spec b s with he | ⟨r, t, hr, ht, he⟩
    · rw [he]
      have hb := b.toNat_lt
      simp only [and_self, if_true]
      refine .append (printableText_ascii fun x hx => ?_) (quoteLoop_printable tbl fuel s)
      simp only [List.mem_cons, List.not_mem_nil, or_false] at hx
      rcases hx with rfl | rfl | rfl | rfl
      · decide
      · decide
      · exact lowerHex_plain (by omega)
      · exact lowerHex_plain (by omega)
    · rw [he]
      dsimp only
      rw [if_neg not_error_of_scalar]
      exact .append (escapeRune_printable tbl hr) (quoteLoop_printable tbl fuel _)

/-- C19: an interpreted literal, as tags that cannot be in backquotes and import paths have it, consists of printable characters. -/
theorem C19_printable (tbl : Nat → Bool) (s : GoString) : PrintableText tbl (quote tbl s) :=
  (printableText_ascii (s := [34]) (by decide)).append ((quoteLoop_printable tbl _ _).append (printableText_ascii (by decide)))

example : quote (fun _ => true) [0xC2, 0xAD, 0xC3, 0xA9] = b! "\"\\u00adé\"" := by decide

end Gopoet
