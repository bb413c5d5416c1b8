import Mathlib.Tactic.ByContra
import Verif.Spec.ListMemory
/-! Lists in memory. -/

namespace Gopoet

theorem length_overwrite {l : List Nat} {pos : Nat} {xs : List Nat} (h : pos + xs.length ≤ l.length) :
    (overwrite l pos xs).length = l.length := by
  simp [overwrite]; omega

theorem getElem?_overwrite {l : List Nat} {pos : Nat} {xs : List Nat} (h : pos + xs.length ≤ l.length) (k : Nat) :
    (overwrite l pos xs)[k]? = if pos ≤ k ∧ k < pos + xs.length then xs[k - pos]? else l[k]? := by
  unfold overwrite
  by_cases h1 : k < pos
  · rw [if_neg (by omega), List.append_assoc, List.getElem?_append_left (by simp; omega), List.getElem?_take_of_lt h1]
  · by_cases h2 : k < pos + xs.length
    · rw [if_pos ⟨by omega, h2⟩, List.getElem?_append_left (by simp; omega),
        List.getElem?_append_right (by simp; omega)]
      congr 1
      simp; omega
    · rw [if_neg (by omega), List.getElem?_append_right (by simp; omega), List.getElem?_drop]
      congr 1
      simp; omega

theorem getElem?_window (l : List Nat) (off len k : Nat) :
    ((l.drop off).take len)[k]? = if k < len then l[off + k]? else none := by
  rw [List.getElem?_take]
  split
  · rw [List.getElem?_drop]
  · rfl

namespace ListMem

/-- the slice is within its array -/
def Fits (m : ListMem) (v : View) : Prop := v.arr < m.arrays.length ∧ v.off + v.len ≤ (m.arrayOf v.arr).length

theorem length_content {m : ListMem} {v : View} (h : m.Fits v) : (m.content v).length = v.len := by
  have := h.2
  rw [content, List.length_take, List.length_drop]
  omega

theorem getElem?_content (m : ListMem) (v : View) (k : Nat) :
    (m.content v)[k]? = if k < v.len then (m.arrayOf v.arr)[v.off + k]? else none := getElem?_window _ _ _ _

theorem arrayOf_write (m : ListMem) {a pos : Nat} {xs : List Nat} (ha : a < m.arrays.length) (b : Nat) :
    (m.write a pos xs).arrayOf b = if b = a then overwrite (m.arrayOf a) pos xs else m.arrayOf b := by
  simp only [arrayOf, write, List.getD_eq_getElem?_getD, List.getElem?_set]
  by_cases hb : b = a
  · subst hb
    simp [ha]
  · rw [if_neg hb, if_neg (Ne.symm hb)]

theorem fits_write {m : ListMem} {a pos : Nat} {xs : List Nat} (ha : a < m.arrays.length)
    (hp : pos + xs.length ≤ (m.arrayOf a).length) {v : View} (h : m.Fits v) : (m.write a pos xs).Fits v := by
  refine ⟨by simpa [write] using h.1, ?_⟩
  rw [arrayOf_write m ha]
  split
  · rename_i e
    rw [length_overwrite hp, ← e]
    exact h.2
  · exact h.2

/-- what is in a slice after elements were stored -/
theorem getElem?_content_write {m : ListMem} {a pos : Nat} {xs : List Nat} (ha : a < m.arrays.length)
    (hp : pos + xs.length ≤ (m.arrayOf a).length) (v : View) (k : Nat) :
    ((m.write a pos xs).content v)[k]? =
      if k < v.len then
        if v.arr = a ∧ pos ≤ v.off + k ∧ v.off + k < pos + xs.length then xs[v.off + k - pos]?
        else (m.arrayOf v.arr)[v.off + k]?
      else none := by
  rw [getElem?_content, arrayOf_write m ha]
  by_cases hv : v.arr = a
  · subst hv
    rw [if_pos rfl, getElem?_overwrite hp]
    simp
  · rw [if_neg hv]
    simp [hv]

/-- elements are stored elsewhere, or are the same as before -/
theorem content_write_same {m : ListMem} {a pos : Nat} {xs : List Nat} (ha : a < m.arrays.length)
    (hp : pos + xs.length ≤ (m.arrayOf a).length) {v : View}
    (h : v.arr = a → ∀ k x, xs[k]? = some x → v.off ≤ pos + k → pos + k < v.off + v.len →
      (m.content v)[pos + k - v.off]? = some x) : (m.write a pos xs).content v = m.content v := by
  refine List.ext_getElem? fun k => ?_
  rw [getElem?_content_write ha hp]
  split
  · rename_i hk
    split
    · rename_i hc
      obtain ⟨x, hx⟩ : ∃ x, xs[v.off + k - pos]? = some x := ⟨_, List.getElem?_eq_getElem (by omega)⟩
      have := h hc.1 _ x hx (by omega) (by omega)
      rw [hx, ← this]
      congr 1
      omega
    · rw [getElem?_content, if_pos hk]
  · rename_i hk
    rw [getElem?_content, if_neg hk]

/-- the slice itself, with the new elements behind its own -/
theorem content_append {m : ListMem} {v : View} {xs : List Nat} (hv : m.Fits v)
    (hp : v.off + v.len + xs.length ≤ (m.arrayOf v.arr).length) :
    (m.write v.arr (v.off + v.len) xs).content { v with len := v.len + xs.length } = m.content v ++ xs := by
  refine List.ext_getElem? fun k => ?_
  rw [getElem?_content_write hv.1 hp]
  dsimp only
  by_cases hk : k < v.len
  · rw [if_pos (by omega), if_neg (by omega), List.getElem?_append_left (by rw [length_content hv]; exact hk),
      getElem?_content, if_pos hk]
  · rw [List.getElem?_append_right (by rw [length_content hv]; omega), length_content hv]
    by_cases h2 : k < v.len + xs.length
    · rw [if_pos h2, if_pos ⟨rfl, by omega, by omega⟩]
      congr 1
      omega
    · rw [if_neg h2, List.getElem?_eq_none (by omega)]

/-- the slice itself, some elements of which are replaced -/
theorem content_write_own {m : ListMem} {v : View} {k : Nat} {xs : List Nat} (hv : m.Fits v) (hk : k + xs.length ≤ v.len) :
    (m.write v.arr (v.off + k) xs).content v = overwrite (m.content v) k xs := by
  have hf := hv.2
  refine List.ext_getElem? fun j => ?_
  rw [getElem?_content_write hv.1 (by omega), getElem?_overwrite (by rw [length_content hv]; exact hk), getElem?_content]
  by_cases hj : j < v.len
  · rw [if_pos hj, if_pos hj]
    by_cases hc : k ≤ j ∧ j < k + xs.length
    · rw [if_pos hc, if_pos ⟨rfl, by omega, by omega⟩]
      congr 1
      omega
    · rw [if_neg hc, if_neg (by omega)]
  · rw [if_neg hj, if_neg hj, if_neg (by omega)]

theorem arrayOf_alloc (ars : List (List Nat)) (vs vs' : List View) (l : List Nat) {a : Nat} (ha : a < ars.length) :
    arrayOf ⟨ars ++ [l], vs⟩ a = arrayOf ⟨ars, vs'⟩ a := by
  simp only [arrayOf, List.getD_eq_getElem?_getD]
  rw [List.getElem?_append_left ha]

theorem arrayOf_new (ars : List (List Nat)) (vs : List View) (l : List Nat) :
    arrayOf ⟨ars ++ [l], vs⟩ ars.length = l := by
  simp [arrayOf]

theorem content_alloc (m : ListMem) (vs : List View) (l : List Nat) {v : View} (hv : m.Fits v) :
    content ⟨m.arrays ++ [l], vs⟩ v = m.content v := by
  show ((arrayOf ⟨m.arrays ++ [l], vs⟩ v.arr).drop v.off).take v.len = _
  rw [arrayOf_alloc _ _ m.views _ hv.1]
  rfl

theorem content_new (ars : List (List Nat)) (vs : List View) (l : List Nat) (n : Nat) :
    content ⟨ars ++ [l], vs⟩ ⟨ars.length, 0, n⟩ = l.take n := by
  show ((arrayOf ⟨ars ++ [l], vs⟩ ars.length).drop 0).take n = _
  rw [arrayOf_new, List.drop_zero]

end ListMem

/-- The lists are at the places of `s`: array `a` has the elements of place `φ[a].1` from `φ[a].2` on. -/
structure Tracks (m : ListMem) (s : Lanes) (φ : List (Nat × Nat)) : Prop where
  arrays : φ.length = m.arrays.length
  views : m.views.length = s.lanes.length
  fits : ∀ {o : Nat} {v : View}, m.views[o]? = some v → m.Fits v
  lanes : ∀ {o : Nat} {v : View} {l : Lane}, m.views[o]? = some v → s.lanes[o]? = some l →
    v.len = l.len ∧ ∃ r, φ[v.arr]? = some r ∧ l.place = r.1 ∧ l.off = v.off + r.2
  places : ∀ {a : Nat} {r : Nat × Nat}, φ[a]? = some r → r.1 < s.caps.length
  caps : ∀ {a : Nat} {r : Nat × Nat} {c : Nat}, φ[a]? = some r → s.caps[r.1]? = some (some c) → (m.arrayOf a).length + r.2 = c

namespace Tracks
variable {m : ListMem} {s : Lanes} {φ : List (Nat × Nat)}

theorem lane (t : Tracks m s φ) {o : Nat} {v : View} (hv : m.views[o]? = some v) : ∃ l, s.lanes[o]? = some l := by
  have := (List.getElem?_eq_some_iff.1 hv).1
  exact ⟨_, List.getElem?_eq_getElem (t.views ▸ this)⟩

theorem view (t : Tracks m s φ) {o : Nat} {l : Lane} (hl : s.lanes[o]? = some l) : ∃ v, m.views[o]? = some v := by
  have := (List.getElem?_eq_some_iff.1 hl).1
  exact ⟨_, List.getElem?_eq_getElem (t.views ▸ this)⟩

theorem none_iff (t : Tracks m s φ) (o : Nat) : m.views[o]? = none ↔ s.lanes[o]? = none := by
  rw [List.getElem?_eq_none_iff, List.getElem?_eq_none_iff, t.views]

/-- if the place is full, there is no room -/
theorem no_room (t : Tracks m s φ) {o n : Nat} {v : View} {l : Lane} (hv : m.views[o]? = some v)
    (hl : s.lanes[o]? = some l) (hf : s.full l.place (l.off + l.len) n = true) :
    ¬ v.off + v.len + n ≤ (m.arrayOf v.arr).length := by
  obtain ⟨e, r, hr, h1, h2⟩ := t.lanes hv hl
  have hp := t.places hr
  unfold Lanes.full at hf
  rw [List.getD_eq_getElem?_getD, h1, List.getElem?_eq_getElem hp] at hf
  cases hc : s.caps[r.1] with
  | none => simp [hc] at hf
  | some c =>
    have := t.caps hr (by rw [List.getElem?_eq_getElem hp, hc])
    simp only [hc, Option.getD_some, decide_eq_true_eq] at hf
    omega

/-- if there is no room although the place is not known to be full, then its size is not known -/
theorem unknown (t : Tracks m s φ) {o n : Nat} {v : View} {l : Lane} (hv : m.views[o]? = some v)
    (hl : s.lanes[o]? = some l) (hf : s.full l.place (l.off + l.len) n = false)
    (hr : ¬ v.off + v.len + n ≤ (m.arrayOf v.arr).length) : s.caps[l.place]? = some none := by
  obtain ⟨e, r, hr, h1, h2⟩ := t.lanes hv hl
  have hp := t.places hr
  unfold Lanes.full at hf
  rw [List.getD_eq_getElem?_getD, h1, List.getElem?_eq_getElem hp] at hf
  rw [h1, List.getElem?_eq_getElem hp]
  cases hc : s.caps[r.1] with
  | none => rfl
  | some c =>
    have := t.caps hr (by rw [List.getElem?_eq_getElem hp, hc])
    simp only [hc, Option.getD_some, decide_eq_false_iff_not] at hf
    omega

theorem empty : Tracks {} {} [] :=
  ⟨rfl, rfl, by simp, by simp, by simp, by simp⟩

/-- one more list, in the memory that is there -/
theorem push (t : Tracks m s φ) {v : View} {l : Lane} {r : Nat × Nat} (hv : m.Fits v) (e : v.len = l.len)
    (hr : φ[v.arr]? = some r) (h1 : l.place = r.1) (h2 : l.off = v.off + r.2) :
    Tracks { m with views := m.views ++ [v] } { s with lanes := s.lanes ++ [l] } φ where
  arrays := t.arrays
  views := by simp [t.views]
  fits := by
    intro o v' hv'
    dsimp only at hv'
    rw [List.getElem?_append] at hv'
    split at hv'
    · exact t.fits hv'
    · rw [List.getElem?_singleton] at hv'
      split at hv' <;> simp only [Option.some.injEq, reduceCtorEq] at hv'
      subst hv'
      exact hv
  lanes := by
    intro o v' l' hv' hl'
    dsimp only at hv' hl'
    rw [List.getElem?_append] at hv' hl'
    rw [t.views] at hv'
    split at hv'
    · rename_i ho
      rw [if_pos ho] at hl'
      exact t.lanes hv' hl'
    · rename_i ho
      rw [if_neg ho] at hl'
      rw [List.getElem?_singleton] at hv' hl'
      split at hv' <;> simp only [Option.some.injEq, reduceCtorEq] at hv'
      rename_i h0
      rw [if_pos h0, Option.some.injEq] at hl'
      subst hv' hl'
      exact ⟨e, r, hr, h1, h2⟩
  places := t.places
  caps := t.caps

/-- another slice in the place of one -/
theorem setView (t : Tracks m s φ) {o : Nat} {v : View} {l : Lane} {r : Nat × Nat} (hv : m.Fits v) (e : v.len = l.len)
    (hr : φ[v.arr]? = some r) (h1 : l.place = r.1) (h2 : l.off = v.off + r.2) :
    Tracks { m with views := m.views.set o v } { s with lanes := s.lanes.set o l } φ where
  arrays := t.arrays
  views := by simp [t.views]
  fits := by
    intro o' v' hv'
    dsimp only at hv'
    rw [List.getElem?_set] at hv'
    split at hv'
    · split at hv' <;> simp only [Option.some.injEq, reduceCtorEq] at hv'
      subst hv'
      exact hv
    · exact t.fits hv'
  lanes := by
    intro o' v' l' hv' hl'
    dsimp only at hv' hl'
    rw [List.getElem?_set] at hv' hl'
    split at hv'
    · rename_i ho
      rw [if_pos ho] at hl'
      split at hv' <;> simp only [Option.some.injEq, reduceCtorEq] at hv'
      split at hl' <;> simp only [Option.some.injEq, reduceCtorEq] at hl'
      subst hv' hl'
      exact ⟨e, r, hr, h1, h2⟩
    · rename_i ho
      rw [if_neg ho] at hl'
      exact t.lanes hv' hl'
  places := t.places
  caps := t.caps

/-- elements are stored -/
theorem write (t : Tracks m s φ) {a pos : Nat} {xs : List Nat} (ha : a < m.arrays.length)
    (hp : pos + xs.length ≤ (m.arrayOf a).length) : Tracks (m.write a pos xs) s φ where
  arrays := by rw [t.arrays]; simp [ListMem.write]
  views := t.views
  fits := fun hv => ListMem.fits_write ha hp (t.fits hv)
  lanes := fun hv hl => t.lanes hv hl
  places := t.places
  caps := by
    intro b r c hr hc
    rw [ListMem.arrayOf_write m ha]
    split
    · rename_i e
      subst e
      rw [length_overwrite hp]
      exact t.caps hr hc
    · exact t.caps hr hc

/-- one more array, for an old place or a new one -/
theorem alloc (t : Tracks m s φ) (a : List Nat) (r : Nat × Nat) {cs : List (Option Nat)}
    (hp : r.1 < (s.caps ++ cs).length)
    (hc : ∀ c, (s.caps ++ cs)[r.1]? = some (some c) → a.length + r.2 = c) :
    Tracks { m with arrays := m.arrays ++ [a] } { s with caps := s.caps ++ cs } (φ ++ [r]) where
  arrays := by simp [t.arrays]
  views := t.views
  fits := by
    intro o v hv
    have := t.fits hv
    refine ⟨by have := this.1; simp; omega, ?_⟩
    rw [ListMem.arrayOf_alloc _ _ m.views _ this.1]
    exact this.2
  lanes := by
    intro o v l hv hl
    obtain ⟨e, r', hr, h⟩ := t.lanes hv hl
    refine ⟨e, r', ?_, h⟩
    rw [List.getElem?_append_left (List.getElem?_eq_some_iff.1 hr).1]
    exact hr
  places := by
    intro b r' hr
    rw [List.getElem?_append] at hr
    split at hr
    · have := t.places hr
      simp
      omega
    · rw [List.getElem?_singleton] at hr
      split at hr <;> simp only [Option.some.injEq, reduceCtorEq] at hr
      subst hr
      exact hp
  caps := by
    intro b r' c hr hc'
    rw [List.getElem?_append] at hr
    split at hr
    · rename_i hb
      rw [t.arrays] at hb
      rw [ListMem.arrayOf_alloc _ _ m.views _ hb]
      refine t.caps hr ?_
      dsimp only at hc'
      rw [List.getElem?_append_left (t.places hr)] at hc'
      exact hc'
    · rename_i hb
      rw [List.getElem?_singleton] at hr
      split at hr <;> simp only [Option.some.injEq, reduceCtorEq] at hr
      rename_i h0
      subst hr
      have e : b = m.arrays.length := by have := t.arrays; omega
      subst e
      rw [ListMem.arrayOf_new]
      exact hc c hc'

theorem append (g : Room) (t : Tracks m s φ) {o : Nat} {v : View} {l : Lane} (hv : m.views[o]? = some v)
    (hl : s.lanes[o]? = some l) (xs : List Nat) : ∃ φ', Tracks (m.append g o v xs) (s.append o l xs.length) φ' := by
  obtain ⟨e, r, hr, h1, h2⟩ := t.lanes hv hl
  have hfit := t.fits hv
  unfold ListMem.append Lanes.append
  by_cases hx : xs = []
  · rw [if_pos hx, if_pos (c := xs.length = 0) (by simp [hx])]
    exact ⟨φ, t⟩
  rw [if_neg hx, if_neg (c := xs.length = 0) (by simpa using hx)]
  have hlen := ListMem.length_content hfit
  by_cases hroom : v.off + v.len + xs.length ≤ (m.arrayOf v.arr).length
  · rw [if_pos hroom, if_neg (fun hf => t.no_room hv hl hf hroom)]
    refine ⟨φ, ?_⟩
    have t' := t.write hfit.1 (xs := xs) hroom
    refine t'.setView (v := { v with len := v.len + xs.length }) (l := { l with len := l.len + xs.length })
      ?_ (by simp [e]) hr h1 h2
    refine ⟨by simpa [ListMem.write] using hfit.1, ?_⟩
    rw [ListMem.arrayOf_write m hfit.1, if_pos rfl, length_overwrite hroom]
    simp only
    omega
  · rw [if_neg hroom]
    cases hf : s.full l.place (l.off + l.len) xs.length with
    | true =>
      rw [if_pos rfl]
      have t' := t.alloc (m.content v ++ xs ++ List.replicate (g m v) 0) (s.caps.length, 0) (cs := [none]) (by simp)
        (by simp)
      refine ⟨_, t'.setView (o := o) (v := ⟨m.arrays.length, 0, v.len + xs.length⟩)
        (l := ⟨s.caps.length, 0, l.len + xs.length⟩) ?_ (by simp [e]) (r := (s.caps.length, 0)) ?_ rfl rfl⟩
      · refine ⟨by simp, ?_⟩
        rw [ListMem.arrayOf_new]
        simp [hlen]
      · simp [← t.arrays]
    | false =>
      rw [if_neg Bool.false_ne_true]
      have hu := t.unknown hv hl hf hroom
      have t' := t.alloc (m.content v ++ xs ++ List.replicate (g m v) 0) (l.place, l.off) (cs := [])
        (by simpa using (List.getElem?_eq_some_iff.1 hu).1) (by simp [hu])
      rw [List.append_nil] at t'
      refine ⟨_, t'.setView (o := o) (v := ⟨m.arrays.length, 0, v.len + xs.length⟩)
        (l := { l with len := l.len + xs.length }) ?_ (by simp [e]) (r := (l.place, l.off)) ?_ rfl (by simp)⟩
      · refine ⟨by simp, ?_⟩
        rw [ListMem.arrayOf_new]
        simp [hlen]
      · simp [← t.arrays]

/-- The lists are at the same places after a command, or both panic. -/
theorem exec (g : Room) (t : Tracks m s φ) (c : ListCmd) :
    (∃ m' s' φ', m.exec g c = some m' ∧ s.exec c = some s' ∧ Tracks m' s' φ') ∨
      m.exec g c = none ∧ s.exec c = none := by
  have miss : ∀ {o : Nat}, m.views[o]? = none → s.lanes[o]? = none := fun h => (t.none_iff _).1 h
  cases c with
  | make l spare =>
    left
    have t' := t.alloc (l ++ List.replicate spare 0) (s.caps.length, 0) (cs := [some (l.length + spare)]) (by simp)
      (by simp)
    exact ⟨_, _, _, rfl, rfl, t'.push (v := ⟨m.arrays.length, 0, l.length⟩) (l := ⟨s.caps.length, 0, l.length⟩)
      ⟨by simp, by rw [ListMem.arrayOf_new]; simp⟩ rfl (r := (s.caps.length, 0)) (by simp [← t.arrays]) rfl rfl⟩
  | share o =>
    simp only [ListMem.exec, Lanes.exec]
    cases hv : m.views[o]? with
    | none => rw [miss hv]; exact .inr ⟨rfl, rfl⟩
    | some v =>
      obtain ⟨l, hl⟩ := t.lane hv
      obtain ⟨e, r, hr, h1, h2⟩ := t.lanes hv hl
      rw [hl]
      exact .inl ⟨_, _, _, rfl, rfl, t.push (t.fits hv) e hr h1 h2⟩
  | sub o a b =>
    simp only [ListMem.exec, Lanes.exec]
    cases hv : m.views[o]? with
    | none => rw [miss hv]; exact .inr ⟨rfl, rfl⟩
    | some v =>
      obtain ⟨l, hl⟩ := t.lane hv
      obtain ⟨e, r, hr, h1, h2⟩ := t.lanes hv hl
      rw [hl]
      simp only [Option.bind_eq_bind, Option.bind_some]
      rw [e]
      split
      · rename_i hab
        refine .inl ⟨_, _, _, rfl, rfl, t.push (v := ⟨v.arr, v.off + a, b - a⟩) (l := ⟨l.place, l.off + a, b - a⟩)
          ?_ rfl hr h1 (by simp only; omega)⟩
        have := t.fits hv
        exact ⟨this.1, by have := this.2; simp only; omega⟩
      · exact .inr ⟨rfl, rfl⟩
  | clone o =>
    simp only [ListMem.exec, Lanes.exec]
    cases hv : m.views[o]? with
    | none => rw [miss hv]; exact .inr ⟨rfl, rfl⟩
    | some v =>
      obtain ⟨l, hl⟩ := t.lane hv
      obtain ⟨e, r, hr, h1, h2⟩ := t.lanes hv hl
      rw [hl]
      have t' := t.alloc (m.content v ++ List.replicate (if v.len = 0 then 0 else g m v) 0) (s.caps.length, 0)
        (cs := [if l.len = 0 then some 0 else none]) (by simp) (by
          intro c hc
          simp only [List.getElem?_append_right (Nat.le_refl _), Nat.sub_self, List.getElem?_cons_zero,
            Option.some.injEq] at hc
          split at hc
          · rename_i h0
            rw [Option.some.injEq] at hc
            rw [← e] at h0
            simp [ListMem.length_content (t.fits hv), h0, ← hc]
          · cases hc)
      refine .inl ⟨_, _, _, rfl, rfl, t'.push (v := ⟨m.arrays.length, 0, v.len⟩) (l := ⟨s.caps.length, 0, l.len⟩)
        ⟨by simp, ?_⟩ e (r := (s.caps.length, 0)) (by simp [← t.arrays]) rfl rfl⟩
      rw [ListMem.arrayOf_new]
      simp [ListMem.length_content (t.fits hv)]
  | add o x =>
    simp only [ListMem.exec, Lanes.exec]
    cases hv : m.views[o]? with
    | none => rw [miss hv]; exact .inr ⟨rfl, rfl⟩
    | some v =>
      obtain ⟨l, hl⟩ := t.lane hv
      rw [hl]
      obtain ⟨φ', t'⟩ := t.append g hv hl [x]
      exact .inl ⟨_, _, _, rfl, rfl, t'⟩
  | addAll o o' =>
    simp only [ListMem.exec, Lanes.exec]
    cases hv : m.views[o]? with
    | none => rw [miss hv]; exact .inr ⟨rfl, rfl⟩
    | some v =>
      obtain ⟨l, hl⟩ := t.lane hv
      rw [hl]
      cases hw : m.views[o']? with
      | none => rw [miss hw]; exact .inr ⟨rfl, rfl⟩
      | some w =>
        obtain ⟨k, hk⟩ := t.lane hw
        rw [hk]
        obtain ⟨φ', t'⟩ := t.append g hv hl (m.content w)
        rw [ListMem.length_content (t.fits hw), (t.lanes hw hk).1] at t'
        exact .inl ⟨_, _, _, rfl, rfl, t'⟩
  | set o k x =>
    simp only [ListMem.exec, Lanes.exec]
    cases hv : m.views[o]? with
    | none => rw [miss hv]; exact .inr ⟨rfl, rfl⟩
    | some v =>
      obtain ⟨l, hl⟩ := t.lane hv
      rw [hl]
      simp only [Option.bind_eq_bind, Option.bind_some]
      rw [(t.lanes hv hl).1]
      split
      · rename_i hk
        have hf := t.fits hv
        have := hf.2
        have := (t.lanes hv hl).1
        exact .inl ⟨_, _, _, rfl, rfl, t.write hf.1 (by simp only [List.length_singleton]; omega)⟩
      · exact .inr ⟨rfl, rfl⟩
  | rewrite o xs =>
    simp only [ListMem.exec, Lanes.exec]
    cases hv : m.views[o]? with
    | none => rw [miss hv]; exact .inr ⟨rfl, rfl⟩
    | some v =>
      obtain ⟨l, hl⟩ := t.lane hv
      rw [hl]
      simp only [Option.bind_eq_bind, Option.bind_some]
      rw [(t.lanes hv hl).1]
      split
      · rename_i hk
        have hf := t.fits hv
        have := hf.2
        have := (t.lanes hv hl).1
        exact .inl ⟨_, _, _, rfl, rfl, t.write hf.1 (by omega)⟩
      · exact .inr ⟨rfl, rfl⟩

/-- Others lists are not harmed by what is stored. -/
theorem unharmed (t : Tracks m s φ) {o pos : Nat} {v : View} {l : Lane} {xs : List Nat} (hv : m.views[o]? = some v)
    (hl : s.lanes[o]? = some l) (hp : pos + xs.length ≤ (m.arrayOf v.arr).length) {q : Nat}
    (hq : l.off + pos = q + v.off) (hs : s.Harmless m.contents o l.place q xs) {p : Nat} {w : View} (hpo : p ≠ o)
    (hw : m.views[p]? = some w) : (m.write v.arr pos xs).content w = m.content w := by
  obtain ⟨e, r, hr, h1, h2⟩ := t.lanes hv hl
  refine ListMem.content_write_same (t.fits hv).1 hp fun ha k x hx hk hk' => ?_
  obtain ⟨l', hl'⟩ := t.lane hw
  obtain ⟨e', r', hr', h1', h2'⟩ := t.lanes hw hl'
  rw [ha, hr, Option.some.injEq] at hr'
  subst hr'
  have := hs p l' (m.content w) hpo hl' (by rw [ListMem.contents, List.getElem?_map, hw]; rfl) (by rw [h1', h1]) k x hx
    (by omega) (by omega)
  rw [← this]
  congr 1
  omega

theorem contents_append (g : Room) (t : Tracks m s φ) {o : Nat} {v : View} {l : Lane} (hv : m.views[o]? = some v)
    (hl : s.lanes[o]? = some l) (xs : List Nat)
    (hs : s.full l.place (l.off + l.len) xs.length = false → s.Harmless m.contents o l.place (l.off + l.len) xs) :
    (m.append g o v xs).contents = m.contents.set o (m.content v ++ xs) := by
  have hfit := t.fits hv
  have ho := (List.getElem?_eq_some_iff.1 hv).1
  obtain ⟨e, r, hr, h1, h2⟩ := t.lanes hv hl
  unfold ListMem.append
  by_cases hx : xs = []
  · subst hx
    rw [if_pos rfl, List.append_nil]
    refine (List.ext_getElem? fun p => ?_)
    rw [List.getElem?_set]
    split
    · rename_i e
      subst e
      rw [ListMem.contents, List.length_map, if_pos ho, List.getElem?_map, hv]
      rfl
    · rfl
  rw [if_neg hx]
  by_cases hroom : v.off + v.len + xs.length ≤ (m.arrayOf v.arr).length
  · rw [if_pos hroom]
    have hf : s.full l.place (l.off + l.len) xs.length = false := by
      by_contra hf
      exact t.no_room hv hl (by simpa using hf) hroom
    refine List.ext_getElem? fun p => ?_
    simp only [ListMem.contents, List.getElem?_map, List.getElem?_set, List.length_map]
    split
    · rw [Option.map_some]
      exact congrArg some (ListMem.content_append hfit hroom)
    · rename_i hp
      cases hw : m.views[p]? with
      | none => rfl
      | some w =>
        rw [Option.map_some, Option.map_some]
        exact congrArg some (t.unharmed hv hl hroom (by omega) (hs hf) (Ne.symm hp) hw)
  · rw [if_neg hroom]
    refine List.ext_getElem? fun p => ?_
    simp only [ListMem.contents, List.getElem?_map, List.getElem?_set, List.length_map]
    split
    · rw [Option.map_some, ListMem.content_new, List.take_left']
      rw [List.length_append, ListMem.length_content hfit]
    · cases hw : m.views[p]? with
      | none => rfl
      | some w =>
        rw [Option.map_some, Option.map_some, ListMem.content_alloc _ _ _ (t.fits hw)]

theorem contents_push (m : ListMem) (v : View) :
    ListMem.contents { m with views := m.views ++ [v] } = m.contents ++ [m.content v] := by
  simp [ListMem.contents, ListMem.content, ListMem.arrayOf]

theorem contents_alloc (t : Tracks m s φ) (a : List Nat) : ListMem.contents { m with arrays := m.arrays ++ [a] } = m.contents := by
  refine List.ext_getElem? fun p => ?_
  simp only [ListMem.contents, List.getElem?_map]
  cases hw : m.views[p]? with
  | none => rfl
  | some w => rw [Option.map_some, Option.map_some, ListMem.content_alloc _ _ _ (t.fits hw)]

theorem contents_write (t : Tracks m s φ) {o k q : Nat} {v : View} {l : Lane} {xs : List Nat} (hv : m.views[o]? = some v)
    (hl : s.lanes[o]? = some l) (hk : k + xs.length ≤ v.len) (hq : q = l.off + k)
    (hs : s.Harmless m.contents o l.place q xs) :
    (m.write v.arr (v.off + k) xs).contents = m.contents.set o (overwrite (m.content v) k xs) := by
  have hfit := t.fits hv
  have := hfit.2
  have ho := (List.getElem?_eq_some_iff.1 hv).1
  refine List.ext_getElem? fun p => ?_
  have hvs : (m.write v.arr (v.off + k) xs).views = m.views := rfl
  simp only [ListMem.contents, List.getElem?_map, List.getElem?_set, List.length_map, hvs]
  split
  · rename_i e
    subst e
    rw [hv, Option.map_some, ListMem.content_write_own hfit hk]
  · rename_i hp
    cases hw : m.views[p]? with
    | none => rfl
    | some w =>
      rw [Option.map_some, Option.map_some]
      exact congrArg some (t.unharmed hv hl (by omega) (by omega) hs (Ne.symm hp) hw)

theorem overwrite_one (l : List Nat) (k x : Nat) (hk : k < l.length) : overwrite l k [x] = l.set k x := by
  simp [overwrite, List.set_eq_take_append_cons_drop, hk]

theorem overwrite_all {l xs : List Nat} (h : xs.length = l.length) : overwrite l 0 xs = xs := by
  simp [overwrite, h]

/-- A command that does no harm does with the lists what it does with values. -/
theorem exec_values (g : Room) (t : Tracks m s φ) (c : ListCmd) (hs : s.Apart m.contents c) :
    (m.exec g c).map ListMem.contents = c.execV m.contents := by
  have get : ∀ o, m.contents[o]? = (m.views[o]?).map m.content := fun o => by rw [ListMem.contents, List.getElem?_map]
  cases c with
  | make l spare =>
    simp only [ListMem.exec, ListCmd.execV, Option.map_some, Option.some.injEq]
    refine (contents_push { m with arrays := m.arrays ++ [l ++ List.replicate spare 0] } _).trans ?_
    rw [t.contents_alloc, ListMem.content_new, List.take_left']
    rfl
  | share o =>
    simp only [ListMem.exec, ListCmd.execV, get]
    cases hv : m.views[o]? with
    | none => rfl
    | some v => exact congrArg some (contents_push m v)
  | sub o a b =>
    simp only [ListMem.exec, ListCmd.execV, get]
    cases hv : m.views[o]? with
    | none => rfl
    | some v =>
      simp only [Option.bind_eq_bind, Option.bind_some, Option.map_some, ListMem.length_content (t.fits hv)]
      split
      · rename_i h
        refine congrArg some ((contents_push m _).trans ?_)
        congr 2
        refine List.ext_getElem? fun k => ?_
        rw [getElem?_window, ListMem.getElem?_content, ListMem.getElem?_content]
        dsimp only
        by_cases hk : k < b - a
        · rw [if_pos hk, if_pos hk, if_pos (by omega), Nat.add_assoc]
        · rw [if_neg hk, if_neg hk]
      · rfl
  | clone o =>
    simp only [ListMem.exec, ListCmd.execV, get]
    cases hv : m.views[o]? with
    | none => rfl
    | some v =>
      refine congrArg some ?_
      refine (contents_push
        { m with arrays := m.arrays ++ [m.content v ++ List.replicate (if v.len = 0 then 0 else g m v) 0] } _).trans ?_
      rw [t.contents_alloc, ListMem.content_new, List.take_left' (ListMem.length_content (t.fits hv))]
  | add o x =>
    simp only [ListMem.exec, ListCmd.execV, get]
    cases hv : m.views[o]? with
    | none => rfl
    | some v =>
      obtain ⟨l, hl⟩ := t.lane hv
      exact congrArg some (t.contents_append g hv hl [x] (hs l hl))
  | addAll o o' =>
    simp only [ListMem.exec, ListCmd.execV, get]
    cases hv : m.views[o]? with
    | none => rfl
    | some v =>
      obtain ⟨l, hl⟩ := t.lane hv
      cases hw : m.views[o']? with
      | none => rfl
      | some w =>
        exact congrArg some (t.contents_append g hv hl _ (hs l _ hl (by rw [get, hw]; rfl)))
  | set o k x =>
    simp only [ListMem.exec, ListCmd.execV, get]
    cases hv : m.views[o]? with
    | none => rfl
    | some v =>
      obtain ⟨l, hl⟩ := t.lane hv
      have e := (t.lanes hv hl).1
      simp only [Option.bind_eq_bind, Option.bind_some, Option.map_some, ListMem.length_content (t.fits hv)]
      split
      · rename_i hk
        refine congrArg some ?_
        rw [t.contents_write hv hl (by simp only [List.length_singleton]; omega) rfl (hs l hl (by omega)), overwrite_one]
        rw [ListMem.length_content (t.fits hv)]
        exact hk
      · rfl
  | rewrite o xs =>
    simp only [ListMem.exec, ListCmd.execV, get]
    cases hv : m.views[o]? with
    | none => rfl
    | some v =>
      obtain ⟨l, hl⟩ := t.lane hv
      have e := (t.lanes hv hl).1
      simp only [Option.bind_eq_bind, Option.bind_some, Option.map_some, ListMem.length_content (t.fits hv)]
      split
      · rename_i hk
        refine congrArg some ?_
        have := t.contents_write (k := 0) hv hl (by omega) rfl (hs l hl (by omega))
        rw [Nat.add_zero] at this
        rw [this, overwrite_all]
        rw [ListMem.length_content (t.fits hv)]
        exact hk
      · rfl

end Tracks

/-- A program that does no harm does with the lists what it does with values. -/
theorem run_values (g : Room) : ∀ (cmds : List ListCmd) {m : ListMem} {s : Lanes} {φ : List (Nat × Nat)},
    Tracks m s φ → KeepsApart s m.contents cmds → (m.run g cmds).map ListMem.contents = runLists m.contents cmds
  | [], m, s, φ, _, _ => rfl
  | c :: cs, m, s, φ, t, hk => by
    obtain ⟨h1, h2⟩ := hk
    have hv := t.exec_values g c h1
    rw [ListMem.run, runLists]
    rcases t.exec g c with ⟨m', s', φ', e, e', t'⟩ | ⟨e, e'⟩
    · rw [e] at hv ⊢
      rw [← hv]
      exact run_values g cs t' (h2 s' _ e' hv.symm)
    · rw [e] at hv ⊢
      rw [← hv]
      rfl

/-! ### With much room -/

/-- Lists at the same place are in the same array, which has room for so many more elements if `append` made it. -/
structure Roomy (m : ListMem) (s : Lanes) (K : Nat) : Prop where
  room : ∀ {o : Nat} {v : View} {l : Lane}, m.views[o]? = some v → s.lanes[o]? = some l → s.caps[l.place]? = some none →
    v.off + v.len + K ≤ (m.arrayOf v.arr).length
  same : ∀ {o p : Nat} {v w : View} {l k : Lane}, m.views[o]? = some v → s.lanes[o]? = some l →
    m.views[p]? = some w → s.lanes[p]? = some k → l.place = k.place → v.arr = w.arr

/-- How many elements a command appends. -/
def Lanes.added (s : Lanes) : ListCmd → Nat
  | .add _ _ => 1
  | .addAll _ o' => match s.lanes[o']? with
    | some l => l.len
    | none => 0
  | _ => 0

namespace Roomy
variable {m : ListMem} {s : Lanes} {φ : List (Nat × Nat)}

theorem empty (K : Nat) : Roomy {} {} K := ⟨by simp, by simp⟩

theorem mono {K K' : Nat} (r : Roomy m s K) (h : K' ≤ K) : Roomy m s K' :=
  ⟨fun hv hl hc => by have := r.room hv hl hc; omega, fun h1 h2 h3 h4 => r.same h1 h2 h3 h4⟩

theorem place_lt (t : Tracks m s φ) {o : Nat} {l : Lane} (hl : s.lanes[o]? = some l) : l.place < s.caps.length := by
  obtain ⟨v, hv⟩ := t.view hl
  obtain ⟨_, r, hr, h1, _⟩ := t.lanes hv hl
  rw [h1]
  exact t.places hr

theorem getElem?_push {α : Type} {l : List α} {a b : α} {o : Nat} (h : (l ++ [a])[o]? = some b) :
    (o < l.length ∧ l[o]? = some b) ∨ (o = l.length ∧ a = b) := by
  rw [List.getElem?_append] at h
  split at h
  · rename_i ho
    exact .inl ⟨ho, h⟩
  · rename_i ho
    rw [List.getElem?_singleton] at h
    split at h
    · exact .inr ⟨by omega, by simpa using h⟩
    · cases h

theorem getElem?_put {α : Type} {l : List α} {a b : α} {p o : Nat} (h : (l.set p a)[o]? = some b) :
    (o ≠ p ∧ l[o]? = some b) ∨ (o = p ∧ a = b) := by
  rw [List.getElem?_set] at h
  split at h
  · rename_i ho
    split at h
    · exact .inr ⟨ho.symm, by simpa using h⟩
    · cases h
  · rename_i ho
    exact .inl ⟨Ne.symm ho, h⟩

/-- one more list in the memory that is there -/
theorem push (t : Tracks m s φ) {K : Nat} (r : Roomy m s K) {o : Nat} {v w : View} {l k : Lane} (hv : m.views[o]? = some v)
    (hl : s.lanes[o]? = some l) (hw : w.arr = v.arr) (hk : k.place = l.place) (he : w.off + w.len ≤ v.off + v.len) :
    Roomy { m with views := m.views ++ [w] } { s with lanes := s.lanes ++ [k] } K where
  room := by
    intro p v' l' hv' hl' hc
    rcases getElem?_push hv' with ⟨h1, h2⟩ | ⟨h1, h2⟩ <;> rcases getElem?_push hl' with ⟨h3, h4⟩ | ⟨h3, h4⟩
    · exact r.room h2 h4 hc
    · have := t.views; omega
    · have := t.views; omega
    · subst h2 h4
      dsimp only at hc
      rw [hk] at hc
      have := r.room hv hl hc
      show w.off + w.len + K ≤ (m.arrayOf w.arr).length
      rw [hw]
      omega
  same := by
    intro p q v' w' l' k' hv' hl' hw' hk' e
    have hlen := t.views
    rcases getElem?_push hv' with ⟨h1, h2⟩ | ⟨h1, h2⟩ <;> rcases getElem?_push hl' with ⟨h3, h4⟩ | ⟨h3, h4⟩ <;>
      rcases getElem?_push hw' with ⟨h5, h6⟩ | ⟨h5, h6⟩ <;> rcases getElem?_push hk' with ⟨h7, h8⟩ | ⟨h7, h8⟩ <;>
      try omega
    · exact r.same h2 h4 h6 h8 e
    · subst h6 h8
      rw [hw]
      exact r.same h2 h4 hv hl (by rw [e, hk])
    · subst h2 h4
      rw [hw]
      exact r.same hv hl h6 h8 (by rw [← hk, e])
    · rw [← h2, ← h6]

/-- one more list in new memory -/
theorem pushNew (t : Tracks m s φ) {K : Nat} (r : Roomy m s K) (a : List Nat) (c : Option Nat) (n : Nat)
    (hc : c = none → n + K ≤ a.length) :
    Roomy ⟨m.arrays ++ [a], m.views ++ [⟨m.arrays.length, 0, n⟩]⟩ ⟨s.caps ++ [c], s.lanes ++ [⟨s.caps.length, 0, n⟩]⟩ K where
  room := by
    intro p v' l' hv' hl' hc'
    rcases getElem?_push hv' with ⟨h1, h2⟩ | ⟨h1, h2⟩ <;> rcases getElem?_push hl' with ⟨h3, h4⟩ | ⟨h3, h4⟩
    · dsimp only at hc'
      rw [List.getElem?_append_left (place_lt t h4)] at hc'
      rw [ListMem.arrayOf_alloc _ _ m.views _ (t.fits h2).1]
      exact r.room h2 h4 hc'
    · have := t.views; omega
    · have := t.views; omega
    · subst h2 h4
      dsimp only at hc' ⊢
      rw [List.getElem?_append_right (Nat.le_refl _)] at hc'
      simp only [Nat.sub_self, List.getElem?_cons_zero, Option.some.injEq] at hc'
      rw [ListMem.arrayOf_new]
      have := hc hc'
      omega
  same := by
    intro p q v' w' l' k' hv' hl' hw' hk' e
    have hlen := t.views
    rcases getElem?_push hv' with ⟨h1, h2⟩ | ⟨h1, h2⟩ <;> rcases getElem?_push hl' with ⟨h3, h4⟩ | ⟨h3, h4⟩ <;>
      rcases getElem?_push hw' with ⟨h5, h6⟩ | ⟨h5, h6⟩ <;> rcases getElem?_push hk' with ⟨h7, h8⟩ | ⟨h7, h8⟩ <;>
      try omega
    · exact r.same h2 h4 h6 h8 e
    · have := place_lt t h4
      subst h8
      dsimp only at e
      omega
    · have := place_lt t h8
      subst h4
      dsimp only at e
      omega
    · rw [← h2, ← h6]

theorem write {K : Nat} (r : Roomy m s K) {a pos : Nat} {xs : List Nat} (ha : a < m.arrays.length)
    (hp : pos + xs.length ≤ (m.arrayOf a).length) : Roomy (m.write a pos xs) s K where
  room := by
    intro o v l hv hl hc
    rw [ListMem.arrayOf_write m ha]
    split
    · rename_i e
      rw [length_overwrite hp, ← e]
      exact r.room hv hl hc
    · exact r.room hv hl hc
  same := fun h1 h2 h3 h4 => r.same h1 h2 h3 h4

/-- If the place is not full, there is room. -/
theorem has_room (t : Tracks m s φ) {K n : Nat} (r : Roomy m s K) (hn : n ≤ K) {o : Nat} {v : View} {l : Lane}
    (hv : m.views[o]? = some v) (hl : s.lanes[o]? = some l) (hf : s.full l.place (l.off + l.len) n = false) :
    v.off + v.len + n ≤ (m.arrayOf v.arr).length := by
  by_contra h
  have := r.room hv hl (t.unknown hv hl hf h)
  omega

theorem append (g : Room) (t : Tracks m s φ) {K : Nat} {o : Nat} {v : View} {l : Lane} (hv : m.views[o]? = some v)
    (hl : s.lanes[o]? = some l) (xs : List Nat) (r : Roomy m s (xs.length + K)) (hg : K ≤ g m v) :
    Roomy (m.append g o v xs) (s.append o l xs.length) K := by
  have hfit := t.fits hv
  have hlen := ListMem.length_content hfit
  unfold ListMem.append Lanes.append
  by_cases hx : xs = []
  · rw [if_pos hx, if_pos (c := xs.length = 0) (by simp [hx])]
    exact r.mono (by omega)
  rw [if_neg hx, if_neg (c := xs.length = 0) (by simpa using hx)]
  cases hf : s.full l.place (l.off + l.len) xs.length with
  | true =>
    rw [if_neg (t.no_room hv hl hf), if_pos rfl]
    constructor
    · intro p v' l' hv' hl' hc'
      dsimp only at hv' hl' hc' ⊢
      rcases getElem?_put hv' with ⟨h1, h2⟩ | ⟨h1, h2⟩ <;> rcases getElem?_put hl' with ⟨h3, h4⟩ | ⟨h3, h4⟩ <;>
        try omega
      · rw [List.getElem?_append_left (place_lt t h4)] at hc'
        rw [ListMem.arrayOf_alloc _ _ m.views _ (t.fits h2).1]
        have := r.room h2 h4 hc'
        exact Nat.le_trans (by omega) this
      · subst h2 h4
        dsimp only
        rw [ListMem.arrayOf_new]
        simp only [List.length_append, List.length_replicate, hlen]
        omega
    · intro p q v' w' l' k' hv' hl' hw' hk' e
      dsimp only at hv' hl' hw' hk'
      rcases getElem?_put hv' with ⟨h1, h2⟩ | ⟨h1, h2⟩ <;> rcases getElem?_put hl' with ⟨h3, h4⟩ | ⟨h3, h4⟩ <;>
        rcases getElem?_put hw' with ⟨h5, h6⟩ | ⟨h5, h6⟩ <;> rcases getElem?_put hk' with ⟨h7, h8⟩ | ⟨h7, h8⟩ <;>
        try omega
      · exact r.same h2 h4 h6 h8 e
      · have := place_lt t h4
        subst h8
        dsimp only at e
        omega
      · have := place_lt t h8
        subst h4
        dsimp only at e
        omega
      · rw [← h2, ← h6]
  | false =>
    have hroom := r.has_room t (by omega) hv hl hf
    rw [if_pos hroom, if_neg Bool.false_ne_true]
    have r' := r.write (xs := xs) hfit.1 hroom
    constructor
    · intro p v' l' hv' hl' hc'
      dsimp only at hv' hl' hc' ⊢
      rcases getElem?_put hv' with ⟨h1, h2⟩ | ⟨h1, h2⟩ <;> rcases getElem?_put hl' with ⟨h3, h4⟩ | ⟨h3, h4⟩ <;>
        try omega
      · have := r'.room h2 h4 hc'
        refine Nat.le_trans (by omega) this
      · subst h2 h4
        have := r'.room hv hl hc'
        refine Nat.le_trans ?_ this
        dsimp only
        omega
    · intro p q v' w' l' k' hv' hl' hw' hk' e
      dsimp only at hv' hl' hw' hk'
      rcases getElem?_put hv' with ⟨h1, h2⟩ | ⟨h1, h2⟩ <;> rcases getElem?_put hl' with ⟨h3, h4⟩ | ⟨h3, h4⟩ <;>
        rcases getElem?_put hw' with ⟨h5, h6⟩ | ⟨h5, h6⟩ <;> rcases getElem?_put hk' with ⟨h7, h8⟩ | ⟨h7, h8⟩ <;>
        try omega
      · exact r.same h2 h4 h6 h8 e
      · subst h6 h8
        have := r.same h2 h4 hv hl e
        exact this
      · subst h2 h4
        have := r.same hv hl h6 h8 e
        exact this
      · rw [← h2, ← h6]

theorem exec (g : Room) (t : Tracks m s φ) {K : Nat} (c : ListCmd) (r : Roomy m s (s.added c + K))
    (hg : ∀ v, K ≤ g m v) {m' : ListMem} {s' : Lanes} (hm : m.exec g c = some m') (hs : s.exec c = some s') :
    Roomy m' s' K := by
  cases c with
  | make l spare =>
    simp only [ListMem.exec, Lanes.exec, Option.some.injEq] at hm hs
    subst hm hs
    simp only [Lanes.added, Nat.zero_add] at r
    exact r.pushNew t _ _ _ (by simp)
  | share o =>
    simp only [ListMem.exec, Lanes.exec, Option.bind_eq_bind, Option.bind_eq_some_iff, Option.some.injEq] at hm hs
    obtain ⟨v, hv, rfl⟩ := hm
    obtain ⟨l, hl, rfl⟩ := hs
    simp only [Lanes.added, Nat.zero_add] at r
    exact r.push t hv hl rfl rfl (Nat.le_refl _)
  | sub o a b =>
    simp only [ListMem.exec, Lanes.exec, Option.bind_eq_bind, Option.bind_eq_some_iff] at hm hs
    obtain ⟨v, hv, hm⟩ := hm
    obtain ⟨l, hl, hs⟩ := hs
    split at hm <;> simp only [Option.some.injEq, reduceCtorEq] at hm
    split at hs <;> simp only [Option.some.injEq, reduceCtorEq] at hs
    subst hm hs
    simp only [Lanes.added, Nat.zero_add] at r
    exact r.push t hv hl rfl rfl (by dsimp only; omega)
  | clone o =>
    simp only [ListMem.exec, Lanes.exec, Option.bind_eq_bind, Option.bind_eq_some_iff, Option.some.injEq] at hm hs
    obtain ⟨v, hv, rfl⟩ := hm
    obtain ⟨l, hl, rfl⟩ := hs
    simp only [Lanes.added, Nat.zero_add] at r
    rw [← (t.lanes hv hl).1]
    refine r.pushNew t _ _ _ fun h0 => ?_
    have := hg v
    simp only [List.length_append, List.length_replicate, ListMem.length_content (t.fits hv)]
    split at h0
    · cases h0
    · rename_i h1
      rw [if_neg h1]
      omega
  | add o x =>
    simp only [ListMem.exec, Lanes.exec, Option.bind_eq_bind, Option.bind_eq_some_iff, Option.some.injEq] at hm hs
    obtain ⟨v, hv, rfl⟩ := hm
    obtain ⟨l, hl, rfl⟩ := hs
    exact append g t hv hl [x] r (hg v)
  | addAll o o' =>
    simp only [ListMem.exec, Lanes.exec, Option.bind_eq_bind, Option.bind_eq_some_iff, Option.some.injEq] at hm hs
    obtain ⟨v, hv, w, hw, rfl⟩ := hm
    obtain ⟨l, hl, k, hk, rfl⟩ := hs
    have e : (m.content w).length = k.len := by rw [ListMem.length_content (t.fits hw), (t.lanes hw hk).1]
    simp only [Lanes.added, hk] at r
    rw [← e] at r ⊢
    exact append g t hv hl _ r (hg v)
  | set o k x =>
    simp only [ListMem.exec, Lanes.exec, Option.bind_eq_bind, Option.bind_eq_some_iff] at hm hs
    obtain ⟨v, hv, hm⟩ := hm
    obtain ⟨l, hl, hs⟩ := hs
    split at hm <;> simp only [Option.some.injEq, reduceCtorEq] at hm
    split at hs <;> simp only [Option.some.injEq, reduceCtorEq] at hs
    subst hm hs
    simp only [Lanes.added, Nat.zero_add] at r
    have hf := t.fits hv
    have := hf.2
    exact r.write hf.1 (by simp only [List.length_singleton]; omega)
  | rewrite o xs =>
    simp only [ListMem.exec, Lanes.exec, Option.bind_eq_bind, Option.bind_eq_some_iff] at hm hs
    obtain ⟨v, hv, hm⟩ := hm
    obtain ⟨l, hl, hs⟩ := hs
    split at hm <;> simp only [Option.some.injEq, reduceCtorEq] at hm
    split at hs <;> simp only [Option.some.injEq, reduceCtorEq] at hs
    subst hm hs
    simp only [Lanes.added, Nat.zero_add] at r
    have hf := t.fits hv
    have := hf.2
    exact r.write hf.1 (by omega)

/-- What is not harmless does harm. -/
theorem harmed (t : Tracks m s φ) {K : Nat} (r : Roomy m s K) {o pos : Nat} {v : View} {l : Lane} {xs : List Nat}
    (hv : m.views[o]? = some v) (hl : s.lanes[o]? = some l) (hp : pos + xs.length ≤ (m.arrayOf v.arr).length) {q : Nat}
    (hq : l.off + pos = q + v.off) (hs : ¬ s.Harmless m.contents o l.place q xs) :
    ∃ p w, p ≠ o ∧ m.views[p]? = some w ∧ (m.write v.arr pos xs).content w ≠ m.content w := by
  unfold Lanes.Harmless at hs
  simp only [not_forall] at hs
  obtain ⟨p, l', ys, hpo, hl', hy, hpl, k, x, hx, h1, h2, hne⟩ := hs
  obtain ⟨w, hw⟩ := t.view hl'
  refine ⟨p, w, hpo, hw, fun e => hne ?_⟩
  rw [ListMem.contents, List.getElem?_map, hw, Option.map_some, Option.some.injEq] at hy
  subst hy
  have ha : w.arr = v.arr := r.same hw hl' hv hl hpl
  obtain ⟨e1, r1, hr1, h3, h4⟩ := t.lanes hv hl
  obtain ⟨e2, r2, hr2, h5, h6⟩ := t.lanes hw hl'
  rw [ha, hr1, Option.some.injEq] at hr2
  subst hr2
  have hk := (List.getElem?_eq_some_iff.1 hx).1
  rw [← e, ListMem.getElem?_content_write (t.fits hv).1 hp, if_pos (by omega), if_pos ⟨ha, by omega, by omega⟩, ← hx]
  congr 1
  omega

end Roomy

/-- With enough room, a command that is not harmless does something else with the lists than with values. -/
theorem exec_harm {m : ListMem} {s : Lanes} {φ : List (Nat × Nat)} (g : Room) (t : Tracks m s φ) (c : ListCmd)
    (r : Roomy m s (s.added c)) (hs : ¬ s.Apart m.contents c) :
    (m.exec g c).map ListMem.contents ≠ c.execV m.contents := by
  have get : ∀ o, m.contents[o]? = (m.views[o]?).map m.content := fun o => by rw [ListMem.contents, List.getElem?_map]
  -- an array is written to, and one of the other lists changes
  have key : ∀ {o pos : Nat} {v : View} {m' : ListMem} {xs ys : List Nat}, m.views[o]? = some v →
      (∀ p, p ≠ o → m'.views[p]? = m.views[p]?) → m'.arrays = (m.write v.arr pos xs).arrays →
      (∃ p w, p ≠ o ∧ m.views[p]? = some w ∧ (m.write v.arr pos xs).content w ≠ m.content w) →
      some m'.contents ≠ some (m.contents.set o ys) := by
    intro o pos v m' xs ys hv hviews harr ⟨p, w, hp, hw, hne⟩ e
    rw [Option.some.injEq] at e
    have e := congrArg (fun l => l[p]?) e
    rw [List.getElem?_set_ne (Ne.symm hp), get, hw, ListMem.contents, List.getElem?_map, hviews p hp, hw,
      Option.map_some, Option.map_some, Option.some.injEq] at e
    refine hne (Eq.trans ?_ e)
    simp only [ListMem.content, ListMem.arrayOf, harr]
  have app : ∀ {o : Nat} {v : View} {l : Lane} (xs : List Nat), m.views[o]? = some v → s.lanes[o]? = some l →
      xs.length ≤ s.added c → s.full l.place (l.off + l.len) xs.length = false →
      ¬ s.Harmless m.contents o l.place (l.off + l.len) xs →
      some (m.append g o v xs).contents ≠ some (m.contents.set o (m.content v ++ xs)) := by
    intro o v l xs hv hl hK hf hh
    have hroom := r.has_room t hK hv hl hf
    have e := (t.lanes hv hl).1
    unfold ListMem.append
    by_cases hx : xs = []
    · subst hx
      exact (hh fun p l' ys _ _ _ _ k x hx => by simp at hx).elim
    rw [if_neg hx, if_pos hroom]
    refine key hv (fun p hp => ?_) rfl (r.harmed t hv hl hroom (by omega) hh)
    simp only [List.getElem?_set_ne (Ne.symm hp)]
  cases c with
  | make l spare => exact (hs trivial).elim
  | share o => exact (hs trivial).elim
  | sub o a b => exact (hs trivial).elim
  | clone o => exact (hs trivial).elim
  | add o x =>
    simp only [Lanes.Apart, not_forall] at hs
    obtain ⟨l, hl, hf, hh⟩ := hs
    obtain ⟨v, hv⟩ := t.view hl
    simp only [ListMem.exec, ListCmd.execV, get, hv]
    exact app [x] hv hl (by simp [Lanes.added]) hf hh
  | addAll o o' =>
    simp only [Lanes.Apart, not_forall] at hs
    obtain ⟨l, xs, hl, hxs, hf, hh⟩ := hs
    obtain ⟨v, hv⟩ := t.view hl
    rw [get] at hxs
    obtain ⟨w, hw, rfl⟩ := Option.map_eq_some_iff.1 hxs
    obtain ⟨k, hk⟩ := t.lane hw
    simp only [ListMem.exec, ListCmd.execV, get, hv, hw]
    refine app (m.content w) hv hl ?_ hf hh
    simp only [Lanes.added, hk, ListMem.length_content (t.fits hw), (t.lanes hw hk).1, Nat.le_refl]
  | set o k x =>
    simp only [Lanes.Apart, not_forall] at hs
    obtain ⟨l, hl, hk, hh⟩ := hs
    obtain ⟨v, hv⟩ := t.view hl
    have e := (t.lanes hv hl).1
    have hf := (t.fits hv).2
    simp only [ListMem.exec, ListCmd.execV, get, hv, Option.bind_eq_bind, Option.bind_some, Option.map_some,
      ListMem.length_content (t.fits hv)]
    rw [if_pos (by omega), if_pos (by omega)]
    exact key hv (fun _ _ => rfl) rfl
      (r.harmed t hv hl (pos := v.off + k) (by simp only [List.length_singleton]; omega) (by omega) hh)
  | rewrite o xs =>
    simp only [Lanes.Apart, not_forall] at hs
    obtain ⟨l, hl, hk, hh⟩ := hs
    obtain ⟨v, hv⟩ := t.view hl
    have e := (t.lanes hv hl).1
    have hf := (t.fits hv).2
    simp only [ListMem.exec, ListCmd.execV, get, hv, Option.bind_eq_bind, Option.bind_some, Option.map_some,
      ListMem.length_content (t.fits hv)]
    rw [if_pos (by omega), if_pos (by omega)]
    exact key hv (fun _ _ => rfl) rfl (r.harmed t hv hl (pos := v.off) (by omega) (by omega) hh)

/-- If `append` makes enough room, a program that is not harmless at some step does something else with the lists than
with values. -/
theorem run_harm : ∀ (cmds : List ListCmd) (s : Lanes) (ls : List (List Nat)), ¬ KeepsApart s ls cmds →
    ∃ K, ∀ g : Room, (∀ m v, K ≤ g m v) → ∀ m φ, Tracks m s φ → m.contents = ls → Roomy m s K →
      ∃ n, (m.run g (cmds.take n)).map ListMem.contents ≠ runLists ls (cmds.take n)
  | [], s, ls, h => (h trivial).elim
  | c :: cs, s, ls, h => by
    by_cases ha : s.Apart ls c
    · simp only [KeepsApart, not_and, not_forall] at h
      obtain ⟨s', ls', hs', hls', h⟩ := h ha
      obtain ⟨K, hK⟩ := run_harm cs s' ls' h
      refine ⟨s.added c + K, fun g hg m φ t hm r => ?_⟩
      have hval := t.exec_values g c (by rw [hm]; exact ha)
      rcases t.exec g c with ⟨m', s'', φ', e, e', t'⟩ | ⟨e, e'⟩
      · rw [e'] at hs'
        cases hs'
        rw [hm, hls', e, Option.map_some, Option.some.injEq] at hval
        obtain ⟨n, hn⟩ := hK g (fun m v => by have := hg m v; omega) m' φ' t' hval
          (Roomy.exec g t c r (fun v => by have := hg m v; omega) e e')
        refine ⟨n + 1, ?_⟩
        rw [List.take_succ_cons, ListMem.run, runLists, e, hls']
        exact hn
      · rw [e'] at hs'
        cases hs'
    · refine ⟨s.added c, fun g hg m φ t hm r => ⟨1, ?_⟩⟩
      subst hm
      have := exec_harm g t c r ha
      rw [List.take_succ_cons, List.take_zero, ListMem.run, runLists]
      intro e
      refine this ?_
      cases h1 : m.exec g c <;> cases h2 : c.execV m.contents <;> simp_all [ListMem.run, runLists]

end Gopoet
