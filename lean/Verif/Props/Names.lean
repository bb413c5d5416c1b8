import Verif.Model.Names
import Verif.Proof.Utf8Lemmas
import Mathlib.Tactic.ByContra
/-!
# Properties C21 and C22: Export and Unexport
-/

namespace Gopoet

/-- The name starts with the rune `r` (a Unicode scalar value other than U+FFFD), followed by the
bytes `rest`. -/
def StartsWithRune (s : GoString) (r : Nat) (rest : GoString) : Prop :=
  isScalar r = true ∧ r ≠ 0xFFFD ∧ s = encodeScalar r ++ rest

/-- The name is exported: it starts with an upper-case letter. -/
def Exported (u : CaseTable) (s : GoString) : Prop :=
  ∃ r rest, StartsWithRune s r rest ∧ u.isUpper r = true

/-- Facts about Unicode: case mappings give scalar values other than U+FFFD, and `X` is upper case. -/
structure CaseTable.Lawful (u : CaseTable) : Prop where
  upperScalar : ∀ r, isScalar r = true → r ≠ 0xFFFD →
    isScalar (u.toUpper r) = true ∧ u.toUpper r ≠ 0xFFFD
  lowerScalar : ∀ r, isScalar r = true → r ≠ 0xFFFD →
    isScalar (u.toLower r) = true ∧ u.toLower r ≠ 0xFFFD
  upperX : u.isUpper 88 = true

/-- The case of the ASCII letters only; used in examples. -/
def exCase : CaseTable where
  isUpper r := decide (65 ≤ r ∧ r ≤ 90)
  toUpper r := if 97 ≤ r ∧ r ≤ 122 then r - 32 else r
  toLower r := if 65 ≤ r ∧ r ≤ 90 then r + 32 else r

theorem exCase_lawful : exCase.Lawful := by
  refine ⟨fun r h h' => ?_, fun r h h' => ?_, by decide⟩ <;>
  · simp only [exCase]
    split
    · refine ⟨?_, by omega⟩
      simp only [isScalar, Bool.or_eq_true, decide_eq_true_eq]; omega
    · exact ⟨h, h'⟩

theorem decode_of_starts {s : GoString} {r : Nat} {rest : GoString} (h : StartsWithRune s r rest) :
    s ≠ [] ∧ decodeRune s = (r, (encodeScalar r).length) ∧ s.drop (encodeScalar r).length = rest := by
  obtain ⟨h1, _, rfl⟩ := h
  refine ⟨?_, decodeRune_encode h1 rest, by simp⟩
  intro h; exact encodeScalar_ne_nil r (List.append_eq_nil_iff.1 h).1

theorem starts_or_error {s : GoString} (hs : s ≠ []) :
    (∃ r rest, StartsWithRune s r rest) ∨
    ((¬ ∃ r rest, StartsWithRune s r rest) ∧ (decodeRune s).1 = runeError) := by
  cases s with
  | nil => exact absurd rfl hs
  | cons b s =>
    have hno : (decodeRune (b :: s)).1 = runeError → ¬ ∃ r rest, StartsWithRune (b :: s) r rest := by
      rintro he ⟨r, rest, hr⟩
      rw [(decode_of_starts hr).2.1] at he
      exact hr.2.1 he
    rcases decodeRune_spec b s with h | ⟨r, t, hr, ht, hd⟩
    · right; exact ⟨hno (by rw [h]), by rw [h]⟩
    · by_cases hf : r = 0xFFFD
      · right
        have he : (decodeRune (b :: s)).1 = runeError := by rw [hd, hf]; rfl
        exact ⟨hno he, he⟩
      · left; exact ⟨r, t, hr, hf, ht⟩

/-! ## C21 -/

/-- C21: what Export returns: a name that starts with an upper-case letter is returned as it is; else
the first rune is replaced by its upper-case form if it has one, a leading underscore is replaced by
`X`, and anything else gets the prefix `X`. The rest of the name is kept. -/
theorem C21_export {u : CaseTable} (hu : u.Lawful) {s rest : GoString} {r : Nat}
    (h : StartsWithRune s r rest) :
    export' u s = .ok (
      if u.isUpper r then s
      else if u.toUpper r ≠ r then encodeScalar (u.toUpper r) ++ rest
      else if r = 95 then b! "X" ++ rest
      else b! "X" ++ s) := by
  obtain ⟨h1, h2, h3⟩ := decode_of_starts h
  have hne : r ≠ runeError := h.2.1
  rw [export', if_neg h1, h2]
  simp only [h3, if_neg hne]
  by_cases hup : u.isUpper r = true
  · simp [hup]
  · simp only [hup, Bool.false_eq_true, if_false]
    by_cases heq : u.toUpper r = r
    · by_cases h95 : r = 95
      · subst h95; simp [heq]
      · simp [heq, h95]
    · simp [heq, encodeRune, (hu.upperScalar r h.1 h.2.1).1]

/-- C21: Export panics exactly on names that do not start with a rune other than U+FFFD, and returns
the empty name as it is. -/
theorem C21_export_panics (u : CaseTable) (s : GoString) :
    export' u [] = .ok [] ∧
    (export' u s = .panic ↔ s ≠ [] ∧ ¬ ∃ r rest, StartsWithRune s r rest) := by
  refine ⟨rfl, ?_⟩
  by_cases hs : s = []
  · subst hs; simp [export']
  · rcases starts_or_error hs with ⟨r, rest, hr⟩ | ⟨hn, he⟩
    · have : ∃ r rest, StartsWithRune s r rest := ⟨r, rest, hr⟩
      simp only [this, not_true_eq_false, and_false, iff_false]
      obtain ⟨-, h2, -⟩ := decode_of_starts hr
      have hne : r ≠ runeError := hr.2.1
      rw [export', if_neg hs, h2]
      simp only [if_neg hne]
      repeat' split
      all_goals simp
    · rw [export', if_neg hs, if_pos he]; simp [hs, hn]

/-- The full claim of C21: what Export returns is exported. It is false of Unicode, see
`C21_full_fails`. -/
def C21_full (u : CaseTable) : Prop := ∀ s s', s ≠ [] → export' u s = .ok s' → Exported u s'

/-- C21: what Export returns is exported, if the upper-case form of the first rune is an upper-case
letter or the rune itself.

Missing from the full property: runes whose upper-case form is not an upper-case letter (such as the
roman numeral ⅰ or ⓐ), for which it fails. -/
theorem C21_exported_partial {u : CaseTable} (hu : u.Lawful) {s s' rest : GoString} {r : Nat}
    (h : StartsWithRune s r rest) (hr : u.toUpper r ≠ r → u.isUpper (u.toUpper r) = true)
    (he : export' u s = .ok s') : Exported u s' := by
  rw [C21_export hu h] at he
  have hX : ∀ t, Exported u (b! "X" ++ t) := by
    intro t
    exact ⟨88, t, ⟨by decide, by decide, rfl⟩, hu.upperX⟩
  simp only [Outcome.ok.injEq] at he
  subst he
  by_cases hup : u.isUpper r = true
  · rw [if_pos hup]; exact ⟨r, rest, h, hup⟩
  · rw [if_neg hup]
    by_cases heq : u.toUpper r = r
    · simp only [heq, ne_eq, not_true_eq_false, if_false]
      split
      · exact hX _
      · exact hX _
    · simp only [ne_eq, heq, not_false_eq_true, if_true]
      obtain ⟨h1, h2⟩ := hu.upperScalar r h.1 h.2.1
      exact ⟨_, rest, ⟨h1, h2, rfl⟩, hr heq⟩

/-- C21: an exported name is returned as it is. -/
theorem C21_exported_unchanged {u : CaseTable} (hu : u.Lawful) {s : GoString} (h : Exported u s) :
    export' u s = .ok s := by
  obtain ⟨r, rest, h, hup⟩ := h
  rw [C21_export hu h, if_pos hup]

/-- C21: Export is idempotent, under the same condition.

Missing from the full property: runes whose upper-case form is not an upper-case letter. -/
theorem C21_export_idempotent_partial {u : CaseTable} (hu : u.Lawful) {s s' rest : GoString} {r : Nat}
    (h : StartsWithRune s r rest) (hr : u.toUpper r ≠ r → u.isUpper (u.toUpper r) = true)
    (he : export' u s = .ok s') : export' u s' = .ok s' :=
  C21_exported_unchanged hu (C21_exported_partial hu h hr he)

theorem encodeScalar_append_inj {r r' : Nat} {t t' : GoString} (h : isScalar r = true) (h' : isScalar r' = true)
    (he : encodeScalar r ++ t = encodeScalar r' ++ t') : r = r' ∧ t = t' := by
  have h1 := decodeRune_encode h t
  have h2 := decodeRune_encode h' t'
  rw [he, h2] at h1
  have : r = r' := (Prod.mk.inj h1).1.symm
  subst this
  exact ⟨rfl, List.append_cancel_left he⟩

/-- C21: Export returns a name as it is exactly if the name is empty or exported. -/
theorem C21_unchanged_iff {u : CaseTable} (hu : u.Lawful) (s : GoString) :
    export' u s = .ok s ↔ s = [] ∨ Exported u s := by
  constructor
  · intro he
    by_cases hs : s = []
    · exact .inl hs
    · right
      rcases starts_or_error hs with ⟨r, rest, hr⟩ | ⟨hn, _⟩
      · refine ⟨r, rest, hr, ?_⟩
        by_contra hup
        rw [C21_export hu hr, if_neg hup] at he
        have hX : ∀ t, b! "X" ++ t = encodeScalar 88 ++ t := fun t => rfl
        have he := Outcome.ok.inj he
        have hX88 : isScalar 88 = true := by decide
        have hs' := hr.2.2
        have no88 : ∀ t, b! "X" ++ t = s → False := fun t ht => by
          rw [hX, hs'] at ht
          have := (encodeScalar_append_inj hX88 hr.1 ht).1
          subst this
          exact hup hu.upperX
        by_cases heq : u.toUpper r = r
        · simp only [heq, ne_eq, not_true_eq_false, if_false] at he
          split at he
          · exact no88 _ he
          · exact no88 _ he
        · simp only [ne_eq, heq, not_false_eq_true, if_true] at he
          rw [hs'] at he
          exact heq (encodeScalar_append_inj (hu.upperScalar r hr.1 hr.2.1).1 hr.1 he).1
      · have := ((C21_export_panics u s).2).2 ⟨hs, hn⟩
        rw [this] at he
        cases he
  · rintro (rfl | h)
    · rfl
    · exact C21_exported_unchanged hu h

/-- C21: exactly when what Export returns is exported, and exactly when calling it again changes nothing: unless the
first rune has an upper-case form that is no upper-case letter (and is not one itself). -/
theorem C21_exported_iff_partial {u : CaseTable} (hu : u.Lawful) {s s' rest : GoString} {r : Nat}
    (h : StartsWithRune s r rest) (he : export' u s = .ok s') :
    (Exported u s' ↔ (u.isUpper r = true ∨ u.toUpper r = r ∨ u.isUpper (u.toUpper r) = true)) ∧
    (export' u s' = .ok s' ↔ (u.isUpper r = true ∨ u.toUpper r = r ∨ u.isUpper (u.toUpper r) = true)) := by
  have key : Exported u s' ↔ (u.isUpper r = true ∨ u.toUpper r = r ∨ u.isUpper (u.toUpper r) = true) := by
    constructor
    · intro hx
      by_cases hup : u.isUpper r = true
      · exact .inl hup
      · by_cases heq : u.toUpper r = r
        · exact .inr (.inl heq)
        · right; right
          rw [C21_export hu h, if_neg hup, if_pos heq] at he
          cases he
          obtain ⟨r', t, ⟨h1, _, h3⟩, h4⟩ := hx
          have := (encodeScalar_append_inj (hu.upperScalar r h.1 h.2.1).1 h1 h3).1
          rwa [this]
    · rintro (hup | heq | hup)
      · rw [C21_export hu h, if_pos hup] at he
        cases he
        exact ⟨r, rest, h, hup⟩
      · exact C21_exported_partial hu h (fun hne => absurd heq hne) he
      · exact C21_exported_partial hu h (fun _ => hup) he
  refine ⟨key, ?_⟩
  rw [C21_unchanged_iff hu, ← key]
  constructor
  · rintro (rfl | hx)
    · exfalso
      have hne : s ≠ [] := (decode_of_starts h).1
      rw [C21_export hu h] at he
      have he := Outcome.ok.inj he
      repeat' split at he
      · exact hne he
      · exact encodeScalar_ne_nil _ (List.append_eq_nil_iff.1 he).1
      · simp at he
      · simp at he
    · exact hx
  · exact .inr

/-- The full claim fails for every table that agrees with Unicode at two code points: the upper-case
form of U+2170 (small roman numeral one) is U+2160, which is its own upper-case form and not an
upper-case letter but a number. Applying Export again then adds an X. -/
theorem C21_full_fails {u : CaseTable} (hu : u.Lawful) (h1 : u.isUpper 0x2170 = false)
    (h2 : u.toUpper 0x2170 = 0x2160) (h3 : u.isUpper 0x2160 = false) (h4 : u.toUpper 0x2160 = 0x2160)
    (rest : GoString) :
    ¬ C21_full u ∧
    export' u (encodeScalar 0x2170 ++ rest) = .ok (encodeScalar 0x2160 ++ rest) ∧
    export' u (encodeScalar 0x2160 ++ rest) = .ok (b! "X" ++ encodeScalar 0x2160 ++ rest) := by
  have e1 : export' u (encodeScalar 0x2170 ++ rest) = .ok (encodeScalar 0x2160 ++ rest) := by
    rw [C21_export hu (r := 0x2170) (rest := rest) ⟨by decide, by decide, rfl⟩]
    simp [h1, h2]
  have e2 : export' u (encodeScalar 0x2160 ++ rest) = .ok (b! "X" ++ encodeScalar 0x2160 ++ rest) := by
    rw [C21_export hu (r := 0x2160) (rest := rest) ⟨by decide, by decide, rfl⟩]
    simp [h3, h4]
  refine ⟨fun h => ?_, e1, e2⟩
  have hne : encodeScalar 0x2170 ++ rest ≠ [] := by
    intro h; exact encodeScalar_ne_nil _ (List.append_eq_nil_iff.1 h).1
  have := C21_exported_unchanged hu (h _ _ hne e1)
  rw [e2] at this
  have := congrArg List.length (Outcome.ok.inj this)
  simp at this

/-- A lawful table that agrees with Unicode at U+2160 and U+2170. -/
example : ∃ u : CaseTable, u.Lawful ∧ u.isUpper 0x2170 = false ∧ u.toUpper 0x2170 = 0x2160 ∧
    u.isUpper 0x2160 = false ∧ u.toUpper 0x2160 = 0x2160 := by
  refine ⟨{ exCase with toUpper := fun r => if r = 0x2170 then 0x2160 else exCase.toUpper r },
    ⟨?_, exCase_lawful.lowerScalar, exCase_lawful.upperX⟩, by decide, by decide, by decide, by decide⟩
  intro r h h'
  dsimp only
  split
  · decide
  · exact exCase_lawful.upperScalar r h h'

example : export' exCase (b! "fooBar") = .ok (b! "FooBar") := by decide
example : export' exCase (b! "FooBar") = .ok (b! "FooBar") ∧ export' exCase (b! "fooBar") ≠ .ok (b! "fooBar") := by decide
example : export' exCase (b! "_foo") = .ok (b! "Xfoo") := by decide
example : export' exCase (b! "1foo") = .ok (b! "X1foo") := by decide
example : export' exCase [0xff, 65] = .panic := by decide
example : StartsWithRune (b! "fooBar") 102 (b! "ooBar") := ⟨by decide, by decide, by decide⟩

/-! ## C22 -/

/-- C22: Unexport replaces exactly the first rune by its lower-case form. -/
theorem C22_unexport {u : CaseTable} (hu : u.Lawful) {s rest : GoString} {r : Nat}
    (h : StartsWithRune s r rest) :
    unexport u s = .ok (encodeScalar (u.toLower r) ++ rest) := by
  obtain ⟨h1, h2, h3⟩ := decode_of_starts h
  have hne : r ≠ runeError := h.2.1
  rw [unexport, if_neg h1, h2]
  simp [h3, hne, encodeRune, (hu.lowerScalar r h.1 h.2.1).1]

/-- C22: Unexport panics exactly on names that do not start with a rune other than U+FFFD, and
returns the empty name as it is. -/
theorem C22_unexport_panics (u : CaseTable) (s : GoString) :
    unexport u [] = .ok [] ∧
    (unexport u s = .panic ↔ s ≠ [] ∧ ¬ ∃ r rest, StartsWithRune s r rest) := by
  refine ⟨rfl, ?_⟩
  by_cases hs : s = []
  · subst hs; simp [unexport]
  · rcases starts_or_error hs with ⟨r, rest, hr⟩ | ⟨hn, he⟩
    · have : ∃ r rest, StartsWithRune s r rest := ⟨r, rest, hr⟩
      simp only [this, not_true_eq_false, and_false, iff_false]
      obtain ⟨-, h2, -⟩ := decode_of_starts hr
      have hne : r ≠ runeError := hr.2.1
      rw [unexport, if_neg hs, h2]
      simp [hne]
    · rw [unexport, if_neg hs, if_pos he]; simp [hs, hn]

/-- C22: Unexport is idempotent, where lower-casing the first rune is. -/
theorem C22_unexport_idempotent {u : CaseTable} (hu : u.Lawful) {s s' rest : GoString} {r : Nat}
    (h : StartsWithRune s r rest) (hr : u.toLower (u.toLower r) = u.toLower r)
    (he : unexport u s = .ok s') : unexport u s' = .ok s' := by
  rw [C22_unexport hu h] at he
  obtain rfl := Outcome.ok.inj he
  obtain ⟨h1, h2⟩ := hu.lowerScalar r h.1 h.2.1
  rw [C22_unexport hu (r := u.toLower r) (rest := rest) ⟨h1, h2, rfl⟩, hr]

/-- C22: Export undoes Unexport for names starting with an upper-case letter that is the upper-case
form of its lower-case form, which is not itself upper case. -/
theorem C22_export_unexport {u : CaseTable} (hu : u.Lawful) {s rest : GoString} {r : Nat}
    (h : StartsWithRune s r rest) (hup : u.isUpper r = true)
    (hlow : u.isUpper (u.toLower r) = false) (hback : u.toUpper (u.toLower r) = r) :
    (unexport u s).bind (export' u) = .ok s := by
  rw [C22_unexport hu h]
  obtain ⟨h1, h2⟩ := hu.lowerScalar r h.1 h.2.1
  show export' u _ = _
  rw [C21_export hu (r := u.toLower r) (rest := rest) ⟨h1, h2, rfl⟩, hlow, hback]
  have : r ≠ u.toLower r := by intro he; rw [← he, hup] at hlow; simp at hlow
  simp [this, h.2.2]

/-- The table is right about ASCII letters. -/
def CaseTable.AsciiCase (u : CaseTable) : Prop := ∀ n, n < 26 →
  u.isUpper (65 + n) = true ∧ u.isUpper (97 + n) = false ∧ u.toLower (65 + n) = 97 + n ∧
  u.toUpper (97 + n) = 65 + n ∧ u.toLower (97 + n) = 97 + n

/-- C22: in particular Export undoes Unexport for names starting with an ASCII upper-case letter, and
Unexport undoes Export for those starting with an ASCII lower-case letter. -/
theorem C22_ascii {u : CaseTable} (hu : u.Lawful) (ha : u.AsciiCase) {b : UInt8} {rest : GoString} :
    (65 ≤ b.toNat → b.toNat ≤ 90 → (unexport u (b :: rest)).bind (export' u) = .ok (b :: rest)) ∧
    (97 ≤ b.toNat → b.toNat ≤ 122 → (export' u (b :: rest)).bind (unexport u) = .ok (b :: rest)) := by
  have hs : b.toNat < 128 → StartsWithRune (b :: rest) b.toNat rest := by
    intro h
    refine ⟨?_, by omega, ?_⟩
    · simp only [isScalar, Bool.or_eq_true, decide_eq_true_eq]; omega
    · rw [encodeScalar_ascii h]; simp
  constructor
  · intro h1 h2
    obtain ⟨a1, a2, a3, a4, -⟩ := ha (b.toNat - 65) (by omega)
    have e1 : 65 + (b.toNat - 65) = b.toNat := by omega
    rw [e1] at a1 a3 a4
    refine C22_export_unexport hu (hs (by omega)) a1 ?_ ?_
    · rw [a3]; exact a2
    · rw [a3]; exact a4
  · intro h1 h2
    obtain ⟨a1, a2, a3, a4, -⟩ := ha (b.toNat - 97) (by omega)
    have e1 : 97 + (b.toNat - 97) = b.toNat := by omega
    rw [e1] at a2 a3 a4
    have hst := hs (by omega)
    rw [C21_export hu hst, a2, a4]
    have hne : 65 + (b.toNat - 97) ≠ b.toNat := by omega
    simp only [Bool.false_eq_true, if_false, ne_eq, hne, not_false_eq_true, if_true]
    show unexport u _ = _
    rw [C22_unexport hu (r := 65 + (b.toNat - 97)) (rest := rest) ⟨?_, by omega, rfl⟩, a3]
    · rw [hst.2.2]
    · simp only [isScalar, Bool.or_eq_true, decide_eq_true_eq]; omega

example : exCase.AsciiCase := by unfold CaseTable.AsciiCase; decide
example : unexport exCase (b! "FooBar") = .ok (b! "fooBar") := by decide
example : unexport exCase [0xEF, 0xBF, 0xBD] = .panic := by decide

end Gopoet
