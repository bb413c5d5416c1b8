import Verif.Spec.Lexer
import Verif.Base
/-! The lexer on text put together from tokens. -/

namespace Gopoet

/-- `s` has the tokens `ts`, for all sufficient fuel. -/
def Lex (s : GoString) (ts : List Tok) : Prop := ∀ f, s.length ≤ f → lexFuel f s = some ts

/-- What may follow a word: the end, or a byte that is neither letter nor digit. -/
def Delim : GoString → Prop
  | [] => True
  | b :: _ => isWordByte b = false

theorem Lex.lex {s ts} (h : Lex s ts) : lex s = some ts := h _ (Nat.le_refl _)

theorem Lex.nil : Lex [] [] := by
  intro f _; cases f <;> rfl

theorem Lex.space {s ts} (h : Lex s ts) : Lex (32 :: s) ts := by
  intro f hf
  cases f with
  | zero => simp at hf
  | succ f =>
    rw [lexFuel, if_pos (by decide)]
    exact h f (by simpa using hf)

theorem Lex.tab {s ts} (h : Lex s ts) : Lex (9 :: s) ts := by
  intro f hf
  cases f with
  | zero => simp at hf
  | succ f =>
    rw [lexFuel, if_pos (by decide)]
    exact h f (by simpa using hf)

theorem Lex.newline {s ts} (h : Lex s ts) : Lex (10 :: s) (.nl :: ts) := by
  intro f hf
  cases f with
  | zero => simp at hf
  | succ f =>
    rw [lexFuel, if_neg (by decide), if_pos rfl, h f (by simpa using hf)]; rfl

theorem takeWhile_delim {w s : GoString} (hw : w.all isWordByte = true) (hs : Delim s) :
    (w ++ s).takeWhile isWordByte = w := by
  induction w with
  | nil =>
    cases s with
    | nil => rfl
    | cons b s => simp only [Delim] at hs; simp [hs]
  | cons a w ih =>
    simp only [List.all_cons, Bool.and_eq_true] at hw
    simp [hw.1, ih hw.2]

theorem dropWhile_delim {w s : GoString} (hw : w.all isWordByte = true) (hs : Delim s) :
    (w ++ s).dropWhile isWordByte = s := by
  induction w with
  | nil =>
    cases s with
    | nil => rfl
    | cons b s => simp only [Delim] at hs; simp [hs]
  | cons a w ih =>
    simp only [List.all_cons, Bool.and_eq_true] at hw
    simp [hw.1, ih hw.2]

theorem letter_not {b : UInt8} (h : isLetterByte b = true) :
    ¬ (b = 32 ∨ b = 9 ∨ b = 13) ∧ b ≠ 10 := by
  refine ⟨?_, ?_⟩
  · rintro (rfl | rfl | rfl) <;> simp [isLetterByte] at h
  · rintro rfl; simp [isLetterByte] at h

theorem digit_not {b : UInt8} (h : isDigitByte b = true) :
    ¬ (b = 32 ∨ b = 9 ∨ b = 13) ∧ b ≠ 10 ∧ isLetterByte b = false := by
  refine ⟨?_, ?_, ?_⟩
  · rintro (rfl | rfl | rfl) <;> simp [isDigitByte] at h
  · rintro rfl; simp [isDigitByte] at h
  · simp only [isDigitByte, Bool.and_eq_true, decide_eq_true_eq] at h
    simp only [isLetterByte, Bool.or_eq_false_iff, Bool.and_eq_false_iff, decide_eq_false_iff_not,
      beq_eq_false_iff_ne]
    refine ⟨⟨⟨by omega, by omega⟩, ?_⟩, by omega⟩
    rintro rfl; simp at h

/-- A word: a letter followed by letters and digits. -/
def isWord (s : GoString) : Bool :=
  (match s with | [] => false | b :: _ => isLetterByte b) && s.all isWordByte

theorem Lex.word {w s : GoString} {ts} (hw : isWord w = true) (hd : Delim s) (h : Lex s ts) :
    Lex (w ++ s) (wordTok w :: ts) := by
  intro f hf
  cases w with
  | nil => simp [isWord] at hw
  | cons b w =>
    simp only [isWord, List.all_cons, Bool.and_eq_true] at hw
    obtain ⟨hb, _, hw⟩ := hw
    cases f with
    | zero => simp at hf
    | succ f =>
      rw [List.cons_append, lexFuel, if_neg (letter_not hb).1, if_neg (letter_not hb).2, if_pos hb,
        takeWhile_delim hw hd, dropWhile_delim hw hd, h f (by simp at hf; omega)]
      rfl

theorem isIdent_isWord {w : GoString} (h : isIdent w = true) : isWord w = true := by
  simp only [isIdent, Bool.and_eq_true] at h
  simp only [isWord, Bool.and_eq_true]; exact h.1

theorem wordTok_ident {w : GoString} (h : isIdent w = true) : wordTok w = .ident w := by
  simp only [isIdent, Bool.and_eq_true, Option.isNone_iff_eq_none] at h
  simp [wordTok, h.2]

theorem Lex.ident {w s : GoString} {ts} (hw : isIdent w = true) (hd : Delim s) (h : Lex s ts) :
    Lex (w ++ s) (.ident w :: ts) := by
  rw [← wordTok_ident hw]; exact Lex.word (isIdent_isWord hw) hd h

theorem Lex.kw {w s : GoString} {ts} {k : Keyword}
    (hw : (isWord w && decide (keyword? w = some k)) = true)
    (hd : Delim s) (h : Lex s ts) : Lex (w ++ s) (.kw k :: ts) := by
  simp only [Bool.and_eq_true, decide_eq_true_eq] at hw
  have : wordTok w = .kw k := by simp [wordTok, hw.2]
  rw [← this]; exact Lex.word hw.1 hd h

theorem Lex.int {w s : GoString} {ts} {n : Nat} (hn : decNum w = some n) (h0 : w ≠ [])
    (hd : Delim s) (h : Lex s ts) : Lex (w ++ s) (.int n :: ts) := by
  have hw : w.all isDigitByte = true := by
    simp only [decNum] at hn
    split at hn
    · rename_i hc; simp only [Bool.and_eq_true] at hc; exact hc.1
    · simp at hn
  have hw' : w.all isWordByte = true := by
    rw [List.all_eq_true] at hw ⊢
    intro x hx; simp [isWordByte, hw x hx]
  intro f hf
  cases w with
  | nil => simp at h0
  | cons b w =>
    simp only [List.all_cons, Bool.and_eq_true] at hw hw'
    cases f with
    | zero => simp at hf
    | succ f =>
      obtain ⟨h1, h2, h3⟩ := digit_not hw.1
      rw [List.cons_append, lexFuel, if_neg h1, if_neg h2, if_neg (by simp [h3]), if_pos hw.1,
        takeWhile_delim hw'.2 hd, dropWhile_delim hw'.2 hd, hn]
      dsimp only
      rw [h f (by simp at hf; omega)]
      rfl

theorem Lex.str {w s v : GoString} {ts} (hv : stringLit (w ++ s) = some (v, s))
    (hw : w.head? = some 34 ∨ w.head? = some 96) (h : Lex s ts) : Lex (w ++ s) (.str v :: ts) := by
  intro f hf
  cases w with
  | nil => simp at hw
  | cons b w =>
    simp only [List.head?_cons, Option.some.injEq] at hw
    cases f with
    | zero => simp at hf
    | succ f =>
      rw [List.cons_append] at hv ⊢
      have h1 : ¬ (b = 32 ∨ b = 9 ∨ b = 13) ∧ b ≠ 10 ∧ isLetterByte b = false ∧
          isDigitByte b = false := by
        rcases hw with rfl | rfl <;> decide
      obtain ⟨h1, h2, h3, h4⟩ := h1
      rw [lexFuel, if_neg h1, if_neg h2, if_neg (by simp [h3]), if_neg (by simp [h4]), if_pos hw, hv]
      dsimp only
      rw [h f (by simp at hf; omega)]
      rfl

/-- Bytes that are a token on their own whatever follows. -/
def isPunct (b : UInt8) : Bool :=
  b == 42 || b == 91 || b == 93 || b == 40 || b == 41 || b == 123 || b == 125 || b == 44 || b == 59
    || b == 61

theorem Lex.punct {b : UInt8} {s : GoString} {ts} (hb : isPunct b = true) (h : Lex s ts) :
    Lex (b :: s) (punctTok b :: ts) := by
  intro f hf
  cases f with
  | zero => simp at hf
  | succ f =>
    simp only [isPunct, Bool.or_eq_true, beq_iff_eq] at hb
    have hs := h f (by simpa using hf)
    rw [lexFuel]
    rcases hb with ((((((((rfl | rfl) | rfl) | rfl) | rfl) | rfl) | rfl) | rfl) | rfl) | rfl <;>
      simp [isLetterByte, isDigitByte, punctStep, hs]

theorem Lex.punct' {b : UInt8} {s : GoString} {ts} {t : Tok}
    (hb : (isPunct b && decide (punctTok b = t)) = true) (h : Lex s ts) : Lex (b :: s) (t :: ts) := by
  simp only [Bool.and_eq_true, decide_eq_true_eq] at hb
  rw [← hb.2]; exact Lex.punct hb.1 h

theorem Lex.arrow {s : GoString} {ts} (h : Lex s ts) : Lex (60 :: 45 :: s) (.arrow :: ts) := by
  intro f hf
  cases f with
  | zero => simp at hf
  | succ f =>
    have hs := h f (by simp at hf; omega)
    rw [lexFuel]
    simp [isLetterByte, isDigitByte, punctStep, hs]

theorem Lex.ellipsis {s : GoString} {ts} (h : Lex s ts) :
    Lex (46 :: 46 :: 46 :: s) (.ellipsis :: ts) := by
  intro f hf
  cases f with
  | zero => simp at hf
  | succ f =>
    have hs := h f (by simp at hf; omega)
    rw [lexFuel]
    simp [isLetterByte, isDigitByte, punctStep, hs]

theorem Lex.dot {s : GoString} {ts} (hd : s.head? ≠ some 46) (h : Lex s ts) :
    Lex (46 :: s) (.dot :: ts) := by
  intro f hf
  cases f with
  | zero => simp at hf
  | succ f =>
    have hs := h f (by simpa using hf)
    have hp : punctStep 46 s = some ([.dot], s) := by
      rw [punctStep.eq_def]
      split <;> simp_all [punctTok]
    rw [lexFuel]
    simp [isLetterByte, isDigitByte, hs, hp]

/-! ## Decimal numbers -/

theorem toNat_digit {n : Nat} (h : n < 10) : (UInt8.ofNat (48 + n)).toNat = 48 + n := by
  have : ∀ n < 10, (UInt8.ofNat (48 + n)).toNat = 48 + n := by decide
  exact this n h

theorem decDigitsAux_spec : ∀ (f n : Nat), n < f →
    decDigitsAux f n ≠ [] ∧ (decDigitsAux f n).all isDigitByte = true ∧
    (decDigitsAux f n).foldl (fun n b => n * 10 + (b.toNat - 48)) 0 = n ∧
    (0 < n → (decDigitsAux f n).head? ≠ some 48)
  | 0, n, h => by omega
  | f + 1, n, h => by
    rw [decDigitsAux]
    split
    · rename_i h10
      have ht := toNat_digit h10
      refine ⟨by simp, ?_, ?_, ?_⟩
      · simp [isDigitByte]; omega
      · simp only [List.foldl_cons, List.foldl_nil, ht]; omega
      · intro hp he
        simp only [List.head?_cons, Option.some.injEq] at he
        rw [he] at ht; simp at ht; omega
    · rename_i h10
      obtain ⟨h1, h2, h3, h4⟩ := decDigitsAux_spec f (n / 10) (by omega)
      have ht := toNat_digit (Nat.mod_lt n (by decide : 10 > 0))
      refine ⟨by simp, ?_, ?_, ?_⟩
      · rw [List.all_append, h2]; simp [isDigitByte]; omega
      · rw [List.foldl_append, h3]
        simp only [List.foldl_cons, List.foldl_nil, ht]; omega
      · intro _
        have := h4 (by omega)
        cases hd : decDigitsAux f (n / 10) with
        | nil => exact absurd hd h1
        | cons a l => rw [hd] at this; simpa using this

theorem decDigits_ne_nil (n : Nat) : decDigits n ≠ [] :=
  (decDigitsAux_spec (n + 1) n (by omega)).1

theorem decNum_decDigits (n : Nat) : decNum (decDigits n) = some n := by
  obtain ⟨_, h2, h3, h4⟩ := decDigitsAux_spec (n + 1) n (by omega)
  rw [decNum, if_pos, decDigits, h3]
  simp only [decDigits, h2, Bool.true_and, Bool.or_eq_true, beq_iff_eq, bne_iff_ne]
  rcases Nat.eq_zero_or_pos n with rfl | hp
  · left; decide
  · right; exact h4 hp

end Gopoet
