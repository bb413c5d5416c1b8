import Verif.Proof.FileDecls
/-! What is written does not depend on the bound on the depth of the recursion. -/

namespace Gopoet

theorem outcome_bind_ok {α β : Type} {x : Outcome α} {f : α → Outcome β} {b : β} (h : x.bind f = .ok b) :
    ∃ a, x = .ok a ∧ f a = .ok b := by
  cases x with
  | ok a => exact ⟨a, rfl, h⟩
  | panic => cases h
  | hang => cases h

/-- `g` gives what `f` gives. -/
def Covers {α : Type} (f g : α → Outcome GoString) : Prop := ∀ a s, f a = .ok s → g a = .ok s

theorem concatText_covers {α : Type} {f g : α → Outcome GoString} (h : Covers f g) :
    Covers (concatText f) (concatText g) := by
  intro l
  induction l with
  | nil => exact fun _ h => h
  | cons a l ih =>
    intro s hs
    obtain ⟨x, h1, h2⟩ := outcome_bind_ok hs
    obtain ⟨y, h3, h4⟩ := outcome_bind_ok h2
    cases h4
    exact concatText_cons (h _ _ h1) (ih _ h3)

theorem fieldText_covers {env : Env} {h : Heap} {f g : TypeSpec → Outcome GoString} (hc : Covers f g) :
    Covers (FieldSpec.text env h f) (FieldSpec.text env h g) := by
  intro a s hs
  obtain ⟨x, h1, h2⟩ := outcome_bind_ok hs
  have : fieldTypeText env h g a.type = .ok x := by
    cases ht : a.type with
    | nil => rw [ht] at h1; exact h1
    | name t => rw [ht] at h1; exact h1
    | spec p =>
      rw [ht, fieldTypeText] at h1
      obtain ⟨t, h3, h4⟩ := outcome_bind_ok h1
      rw [fieldTypeText, h3]
      change (if t.name = [] then g t else _) = _
      split at h4
      · rw [if_pos ‹_›]; exact hc _ _ h4
      · rw [if_neg ‹_›]; exact h4
  rw [FieldSpec.text, this]
  exact h2

theorem writeUnderlying_covers {env : Env} {h : Heap} : ∀ {n m : Nat}, n ≤ m →
    Covers (writeUnderlying env h n) (writeUnderlying env h m)
  | 0, _, _ => fun _ _ h => by cases h
  | n + 1, 0, h => by omega
  | n + 1, m + 1, hm => by
    intro t s hs
    rw [writeUnderlying] at hs ⊢
    cases ht : t.underlying <;> rw [ht] at hs <;> try exact hs
    obtain ⟨x, h1, h2⟩ := outcome_bind_ok hs
    have := concatText_covers (g := fun p => (deref h.fields p).bind fun f =>
        f.text env h (writeUnderlying env h m)) (fun p s hp => by
      obtain ⟨f, h3, h4⟩ := outcome_bind_ok hp
      dsimp only; rw [h3]
      exact fieldText_covers (writeUnderlying_covers (by omega)) _ _ h4) _ _ h1
    simp only [this]
    exact h2

theorem typeText_covers {env : Env} {h : Heap} {n m : Nat} (hm : n ≤ m) (b : Bool) :
    Covers (fun t => TypeSpec.text env h n t b) (fun t => TypeSpec.text env h m t b) := by
  intro t s hs
  obtain ⟨x, h1, h2⟩ := outcome_bind_ok hs
  simp only [TypeSpec.text, writeUnderlying_covers hm _ _ h1]
  exact h2

theorem elemText_covers {env : Env} {h : Heap} {n m : Nat} (hm : n ≤ m) :
    Covers (FileElem.text env h n) (FileElem.text env h m) := by
  intro e s hs
  cases e with
  | values p => exact hs
  | func p => exact hs
  | types p =>
    obtain ⟨d, h1, h2⟩ := outcome_bind_ok hs
    rw [FileElem.text, h1]
    change d.text env h m = .ok s
    rw [TypeDecl.text] at h2 ⊢
    split at h2
    · rw [if_pos ‹_›]
      obtain ⟨x, h3, h4⟩ := outcome_bind_ok h2
      have := concatText_covers (g := fun p => (deref h.types p).bind fun t => t.text env h m true)
        (fun p s hp => by
          obtain ⟨f, h3, h4⟩ := outcome_bind_ok hp
          dsimp only; rw [h3]
          exact typeText_covers hm true _ _ h4) _ _ h3
      rw [this]
      exact h4
    · rw [if_neg ‹_›]
      cases ht : d.types with
      | nil => rw [ht] at h2; cases h2
      | cons p l =>
        rw [ht] at h2
        obtain ⟨t, h3, h4⟩ := outcome_bind_ok h2
        obtain ⟨x, h5, h6⟩ := outcome_bind_ok h4
        simp only [h3]
        have := typeText_covers hm false _ _ h5
        simp only at this
        change Outcome.bind (TypeSpec.text env h m t false) _ = _
        rw [this]
        exact h6

theorem fileText_covers {env : Env} {h : Heap} {n m : Nat} (hm : n ≤ m) :
    Covers (GoFile.text env h n) (GoFile.text env h m) := by
  intro f s hs
  obtain ⟨x, h1, h2⟩ := outcome_bind_ok hs
  have := concatText_covers (g := fun e => (FileElem.text env h m e).bind fun s => .ok (b! "\n" ++ s))
    (fun p s hp => by
      obtain ⟨f, h3, h4⟩ := outcome_bind_ok hp
      dsimp only; rw [elemText_covers hm _ _ h3]
      exact h4) _ _ h1
  rw [GoFile.text, this]
  exact h2

end Gopoet
