import Verif.Base
/-! Helper lemmas about the basic vocabulary. -/

namespace Gopoet

namespace GoMap
variable {K V : Type} [DecidableEq K]

@[simp] theorem get_nil (k : K) : GoMap.get ([] : GoMap K V) k = none := rfl

theorem get_filter_ne (m : GoMap K V) (k k' : K) (h : k' ≠ k) :
    GoMap.get (m.filter (fun e => decide (e.1 ≠ k))) k' = GoMap.get m k' := by
  induction m with
  | nil => rfl
  | cons e m ih =>
    obtain ⟨a, v⟩ := e
    by_cases ha : a = k
    · subst ha
      simp only [List.filter, ne_eq, not_true, decide_false]
      rw [ih, GoMap.get]
      simp [Ne.symm h]
    · simp only [List.filter, ne_eq, ha, not_false_eq_true, decide_true, GoMap.get]
      rw [ih]

@[simp] theorem get_set_same (m : GoMap K V) (k : K) (v : V) : (m.set k v).get k = some v := by
  simp [GoMap.set, GoMap.get]

theorem get_set_ne (m : GoMap K V) {k k' : K} (v : V) (h : k' ≠ k) :
    (m.set k v).get k' = m.get k' := by
  simp only [GoMap.set, GoMap.get, Ne.symm h, if_false]
  exact get_filter_ne m k k' h

theorem get_set (m : GoMap K V) (k k' : K) (v : V) :
    (m.set k v).get k' = if k' = k then some v else m.get k' := by
  split
  · subst_vars; simp
  · exact get_set_ne m v ‹_›

theorem get_eq_none_iff (m : GoMap K V) (k : K) : m.get k = none ↔ k ∉ m.keys := by
  induction m with
  | nil => simp [keys]
  | cons e m ih =>
    obtain ⟨a, v⟩ := e
    simp only [GoMap.get, keys, List.map_cons, List.mem_cons] at *
    by_cases h : a = k
    · simp [h]
    · simp [h, ih, Ne.symm h]

theorem mem_of_get {m : GoMap K V} {k : K} {v : V} (h : m.get k = some v) : (k, v) ∈ m := by
  induction m with
  | nil => simp at h
  | cons e m ih =>
    obtain ⟨a, w⟩ := e
    simp only [GoMap.get] at h
    by_cases ha : a = k
    · simp only [ha, if_true, Option.some.injEq] at h; simp [ha, h]
    · simp only [ha, if_false] at h; exact List.mem_cons_of_mem _ (ih h)

theorem get_of_mem {m : GoMap K V} (hn : m.keys.Nodup) {k : K} {v : V} (h : (k, v) ∈ m) :
    m.get k = some v := by
  induction m with
  | nil => simp at h
  | cons e m ih =>
    obtain ⟨a, w⟩ := e
    simp only [keys, List.map_cons, List.nodup_cons] at hn
    simp only [GoMap.get]
    rcases List.mem_cons.1 h with h | h
    · cases h; simp
    · have : a ≠ k := by
        rintro rfl
        exact hn.1 (List.mem_map.2 ⟨(a, v), h, rfl⟩)
      simp only [this, if_false]
      exact ih hn.2 h

theorem keys_nodup_set {m : GoMap K V} (hn : m.keys.Nodup) (k : K) (v : V) :
    (m.set k v).keys.Nodup := by
  simp only [keys, set, List.map_cons, List.nodup_cons]
  constructor
  · simp
  · exact List.Nodup.sublist (List.Sublist.map _ List.filter_sublist) hn

omit [DecidableEq K] in
theorem length_keys (m : GoMap K V) : m.keys.length = m.length := by simp [keys]

end GoMap

/-- A duplicate-free list whose elements all occur in another list is not longer than it. -/
theorem length_le_of_nodup_of_subset {α : Type} [DecidableEq α] :
    ∀ (l l' : List α), l.Nodup → (∀ x ∈ l, x ∈ l') → l.length ≤ l'.length := by
  intro l
  induction l with
  | nil => intros; simp
  | cons a l ih =>
    intro l' hn hs
    have ha : a ∈ l' := hs a (by simp)
    have hn' := List.nodup_cons.1 hn
    have := ih (l'.erase a) hn'.2 (fun x hx => by
      have hx' : x ≠ a := by rintro rfl; exact hn'.1 hx
      exact (List.mem_erase_of_ne hx').2 (hs x (List.mem_cons_of_mem _ hx)))
    rw [List.length_erase_of_mem ha] at this
    have hpos : 0 < l'.length := List.length_pos_of_mem ha
    simp only [List.length_cons]
    omega

/-! ### Decimal numbers -/

/-- The number written by a list of decimal digit bytes. -/
def digitsVal (s : GoString) : Nat := s.foldl (fun acc b => acc * 10 + (b.toNat - 48)) 0

theorem digit_toNat {n : Nat} (h : n < 10) : (UInt8.ofNat (48 + n)).toNat = 48 + n := by
  simp [UInt8.toNat_ofNat']; omega

theorem digitsVal_decDigitsAux : ∀ (f n : Nat), n < f → digitsVal (decDigitsAux f n) = n := by
  intro f
  induction f with
  | zero => intro n h; omega
  | succ f ih =>
    intro n h
    simp only [decDigitsAux]
    split
    · rename_i hn
      simp only [digitsVal, List.foldl_cons, List.foldl_nil, digit_toNat hn]
      omega
    · rename_i hn
      have h1 := ih (n / 10) (by omega)
      simp only [digitsVal, List.foldl_append, List.foldl_cons, List.foldl_nil] at *
      rw [h1, digit_toNat (Nat.mod_lt _ (by omega))]
      omega

@[simp] theorem digitsVal_decDigits (n : Nat) : digitsVal (decDigits n) = n :=
  digitsVal_decDigitsAux _ _ (by omega)

theorem decDigits_injective {m n : Nat} (h : decDigits m = decDigits n) : m = n := by
  rw [← digitsVal_decDigits m, h, digitsVal_decDigits]

theorem decDigitsAux_ne_nil {f n : Nat} (h : n < f) : decDigitsAux f n ≠ [] := by
  cases f with
  | zero => omega
  | succ f => simp only [decDigitsAux]; split <;> simp

theorem decDigits_ne_nil (n : Nat) : decDigits n ≠ [] := decDigitsAux_ne_nil (by omega)

/-- A decimal digit byte. -/
def isDigit (b : UInt8) : Bool := 48 ≤ b && b ≤ 57

theorem isDigit_ofNat {n : Nat} (h : n < 10) : isDigit (UInt8.ofNat (48 + n)) = true := by
  have : n = 0 ∨ n = 1 ∨ n = 2 ∨ n = 3 ∨ n = 4 ∨ n = 5 ∨ n = 6 ∨ n = 7 ∨ n = 8 ∨ n = 9 := by omega
  rcases this with h | h | h | h | h | h | h | h | h | h <;> subst h <;> decide

theorem isDigit_decDigitsAux : ∀ (f n : Nat), ∀ b ∈ decDigitsAux f n, isDigit b = true := by
  intro f
  induction f with
  | zero => intro n b hb; simp [decDigitsAux] at hb
  | succ f ih =>
    intro n b hb
    simp only [decDigitsAux] at hb
    split at hb
    · rename_i hn
      simp only [List.mem_singleton] at hb
      subst hb; exact isDigit_ofNat hn
    · simp only [List.mem_append, List.mem_singleton] at hb
      rcases hb with hb | hb
      · exact ih _ _ hb
      · subst hb; exact isDigit_ofNat (Nat.mod_lt _ (by omega))

theorem isDigit_decDigits (n : Nat) : ∀ b ∈ decDigits n, isDigit b = true :=
  isDigit_decDigitsAux _ _

end Gopoet
