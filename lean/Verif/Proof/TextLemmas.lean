import Verif.Model.Text
import Verif.Model.GoPath
/-! Lemmas about splitting and joining text. -/

namespace Gopoet

theorem splitOn_ne_nil (sep : UInt8) (s : GoString) : splitOn sep s ≠ [] := by
  induction s with
  | nil => simp [splitOn]
  | cons c s ih =>
    simp only [splitOn]
    split
    · simp
    · split <;> simp

theorem splitOn_cons_ne {sep c : UInt8} (h : c ≠ sep) (s : GoString) :
    ∃ p ps, splitOn sep s = p :: ps ∧ splitOn sep (c :: s) = (c :: p) :: ps := by
  simp only [splitOn, if_neg h]
  match hs : splitOn sep s with
  | [] => exact absurd hs (splitOn_ne_nil sep s)
  | p :: ps => exact ⟨p, ps, rfl, rfl⟩

theorem not_mem_splitOn (sep : UInt8) (s : GoString) : ∀ p ∈ splitOn sep s, sep ∉ p := by
  induction s with
  | nil => simp [splitOn]
  | cons c s ih =>
    by_cases h : c = sep
    · subst h
      intro p hp
      simp only [splitOn, if_true, List.mem_cons] at hp
      rcases hp with rfl | hp
      · simp
      · exact ih p hp
    · obtain ⟨p, ps, h1, h2⟩ := splitOn_cons_ne h s
      rw [h2]
      rw [h1] at ih
      intro q hq
      rcases List.mem_cons.1 hq with rfl | hq
      · simp only [List.mem_cons, not_or]
        exact ⟨Ne.symm h, ih p (by simp)⟩
      · exact ih q (by simp [hq])

theorem joinWith_cons {sep p : GoString} {ps : List GoString} (h : ps ≠ []) :
    joinWith sep (p :: ps) = p ++ sep ++ joinWith sep ps := by
  cases ps with
  | nil => exact absurd rfl h
  | cons q qs => rfl

theorem joinWith_splitOn (sep : UInt8) (s : GoString) : joinWith [sep] (splitOn sep s) = s := by
  induction s with
  | nil => rfl
  | cons c s ih =>
    by_cases h : c = sep
    · subst h
      simp only [splitOn, if_true]
      rw [joinWith_cons (splitOn_ne_nil _ _), ih]
      simp
    · obtain ⟨p, ps, h1, h2⟩ := splitOn_cons_ne h s
      rw [h2]
      rw [h1] at ih
      rw [← ih]
      cases ps with
      | nil => rfl
      | cons q qs => rfl

theorem splitOn_of_not_mem {sep : UInt8} {s : GoString} (h : sep ∉ s) : splitOn sep s = [s] := by
  induction s with
  | nil => rfl
  | cons c s ih =>
    simp only [List.mem_cons, not_or] at h
    simp only [splitOn, if_neg (Ne.symm h.1), ih h.2]

theorem splitOn_append (sep : UInt8) (a b : GoString) :
    splitOn sep (a ++ sep :: b) = splitOn sep a ++ splitOn sep b := by
  induction a with
  | nil => simp [splitOn]
  | cons c a ih =>
    by_cases h : c = sep
    · subst h
      simp only [List.cons_append, splitOn, if_true, ih]
    · obtain ⟨p, ps, h1, h2⟩ := splitOn_cons_ne h a
      obtain ⟨q, qs, h3, h4⟩ := splitOn_cons_ne h (a ++ sep :: b)
      rw [List.cons_append, h4, h2]
      rw [ih, h1] at h3
      simp only [List.cons_append, List.cons.injEq] at h3
      rw [← h3.1, ← h3.2]
      rfl

theorem splitOn_joinWith (sep : UInt8) (ps : List GoString) (hne : ps ≠ [])
    (h : ∀ p ∈ ps, sep ∉ p) : splitOn sep (joinWith [sep] ps) = ps := by
  induction ps with
  | nil => exact absurd rfl hne
  | cons p ps ih =>
    cases ps with
    | nil => exact splitOn_of_not_mem (h p (by simp))
    | cons q qs =>
      have e : joinWith [sep] (p :: q :: qs) = p ++ sep :: joinWith [sep] (q :: qs) := by
        simp [joinWith]
      rw [e, splitOn_append, splitOn_of_not_mem (h p (by simp)), ih (by simp)
        (fun x hx => h x (by simp [hx]))]
      rfl

/-- Splitting is the only way to write a text as pieces without separator. -/
theorem splitOn_unique {sep : UInt8} {s : GoString} {ps : List GoString} (hne : ps ≠ [])
    (h : ∀ p ∈ ps, sep ∉ p) (hj : joinWith [sep] ps = s) : ps = splitOn sep s := by
  rw [← hj, splitOn_joinWith sep ps hne h]

theorem length_splitOn (sep : UInt8) (s : GoString) :
    (splitOn sep s).length = s.count sep + 1 := by
  induction s with
  | nil => rfl
  | cons c s ih =>
    by_cases h : c = sep
    · subst h
      simp [splitOn, ih]
    · obtain ⟨p, ps, h1, h2⟩ := splitOn_cons_ne h s
      rw [h2]
      rw [h1] at ih
      rw [List.count_cons_of_ne h, ← ih]
      rfl

end Gopoet
