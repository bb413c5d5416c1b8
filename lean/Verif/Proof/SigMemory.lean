import Verif.Spec.SigMemory
import Verif.Proof.MemorySim
import Verif.Proof.DataParts
/-!
# Programs that treat signatures and types as values
-/

namespace Gopoet
open MM

/-- The arguments or the results. -/
def MSig.slot (s : MSig) (b : Bool) : Slice := if b then s.results else s.args

/-- The part knows no element of the array after the slice. -/
def Slice.Ends (h : Part) (s : Slice) : Prop :=
  s.len ≠ 0 → ∀ l, h s.arr = some (.array l) → l.length ≤ s.off + s.len

/-- The number of the arguments or of the results. -/
def ListIds.slot (x : ListIds) (b : Bool) : Nat := if b then x.results else x.args

/-- The slice is the list with the number: it is known, and where the list can be continued, no more is known of the
array. -/
structure Held (h : Part) (p : SigPlan) (n : Nat) (s : Slice) : Prop where
  elems : ∃ E, h.elems s = some E
  zero : n = 0 → s.len = 0
  lt : n < p.next
  ends : p.free n = true → s.Ends h

/-- The memory stands for the values. `h` is the memory that is not going to change any more, except that arrays get
longer; `ids` are the lists of the signatures in memory. -/
structure Stands (m : Mem) (h : Part) (ids : Nat → Option ListIds) (p : SigPlan) (v : SigVals) (r : SigRefs) : Prop where
  inPart : At h m
  len : r.objs.length = v.sigs.length
  planLen : p.sigs.length = v.sigs.length
  inj : ∀ (k k' a : Nat) x, r.objs[k]? = some a → r.objs[k']? = some a → p.sigs[k]? = some (x, false) → k = k'
  obj : ∀ (k : Nat) a sig x f, r.objs[k]? = some a → v.sigs[k]? = some sig → p.sigs[k]? = some (x, f) →
    ids a = some x ∧ ∃ s, m.cells a = some (.sig s) ∧ h.Sig sig s ∧ h a = if f then some (.sig s) else none
  held : ∀ a x, ids a = some x → a < m.next ∧ ∃ s, m.cells a = some (.sig s) ∧ ∀ b, Held h p (x.slot b) (s.slot b)
  apart : ∀ a a' x x' s s' b b', ids a = some x → ids a' = some x' → m.cells a = some (.sig s) →
    m.cells a' = some (.sig s') → (s.slot b).len ≠ 0 → (s'.slot b').len ≠ 0 → (s.slot b).arr = (s'.slot b').arr →
    p.free (x.slot b) = true → p.free (x'.slot b') = true → x.slot b = x'.slot b'
  typesLen : v.types.length = r.types.length ∧ p.types.length = r.types.length
  types : ∀ (k : Nat) t w, v.types[k]? = some t → r.types[k]? = some w → h.Type t w
  funcs : ∀ (k : Nat) q x, r.types[k]? = some (.func q) → p.types[k]? = some x → ids q = some x
  used : ∀ n ∈ p.used, n < p.next

/-- A slice that is not empty has its array in the part. -/
theorem elems_arr {h : Part} {s : Slice} {E : List Elem} (he : h.elems s = some E) (h0 : s.len ≠ 0) :
    ∃ l, h s.arr = some (.array l) ∧ s.off + s.len ≤ l.length ∧ E = (l.drop s.off).take s.len := by
  unfold Part.elems at he
  rw [if_neg h0] at he
  split at he
  · rename_i l hl
    split at he
    · rename_i hle
      cases he
      exact ⟨l, hl, hle, rfl⟩
    · cases he
  · cases he

theorem sig_elems {h : Part} {sig : Signature} {s : MSig} (hs : h.Sig sig s) (b : Bool) :
    ∃ E, h.elems (s.slot b) = some E := by
  obtain ⟨args, results, va⟩ := sig
  rw [Part.Sig] at hs
  obtain ⟨-, l, l', h1, -, h2, -⟩ := hs
  cases b
  · exact ⟨l, h1⟩
  · exact ⟨l', h2⟩

theorem elems_lt {h : Part} {m : Mem} {s : Slice} {E : List Elem} (a : At h m) (he : h.elems s = some E) (h0 : s.len ≠ 0) :
    s.arr < m.next := by
  obtain ⟨l, hl, -⟩ := elems_arr he h0
  exact a.lt _ _ hl

theorem Held.step {m : Mem} {h h' : Part} {p : SigPlan} {n : Nat} {s : Slice} (hd : Held h p n s) (a : At h m)
    (le : h.Le h') (old : ∀ q < m.next, (s.len ≠ 0 → q = s.arr → p.free n = true → h' q = h q)) : Held h' p n s where
  elems := by
    obtain ⟨E, he⟩ := hd.elems
    exact ⟨E, Part.elems_mono le he⟩
  zero := hd.zero
  lt := hd.lt
  ends := fun hf h0 l hl => by
    obtain ⟨E, he⟩ := hd.elems
    rw [old _ (elems_lt a he h0) h0 rfl hf] at hl
    exact hd.ends hf h0 l hl

/-- Memory grows. -/
theorem Stands.step {m m' : Mem} {h h' : Part} {ids : Nat → Option ListIds} {p : SigPlan} {v : SigVals} {r : SigRefs}
    (st : Stands m h ids p v r) (ms : MStep noAddr h m h' m') : Stands m' h' ids p v r where
  inPart := ms.after
  len := st.len
  planLen := st.planLen
  inj := st.inj
  obj := fun k a sig x f ha hs hx => by
    obtain ⟨h1, s, h2, h3, h4⟩ := st.obj k a sig x f ha hs hx
    have hlt := (st.held a x h1).1
    exact ⟨h1, s, (ms.same a hlt id).trans h2, h3.mono ms.le _ _, (ms.old a hlt).trans h4⟩
  held := fun a x hx => by
    obtain ⟨h1, s, h2, h3⟩ := st.held a x hx
    exact ⟨Nat.lt_of_lt_of_le h1 ms.next, s, (ms.same a h1 id).trans h2, fun b =>
      (h3 b).step st.inPart ms.le fun q hq _ _ _ => ms.old q hq⟩
  apart := fun a a' x x' s s' b b' hx hx' hs hs' => by
    rw [ms.same a (st.held a x hx).1 id] at hs
    rw [ms.same a' (st.held a' x' hx').1 id] at hs'
    exact st.apart a a' x x' s s' b b' hx hx' hs hs'
  typesLen := st.typesLen
  types := fun k t w ht hw => Part.Type.mono ms.le _ _ (st.types k t w ht hw)
  funcs := st.funcs
  used := st.used

section
variable {m m1 : Mem} {h h1 : Part} {ids : Nat → Option ListIds} {p p1 : SigPlan} {v : SigVals} {r : SigRefs}

theorem Stands.sig_at (st : Stands m h ids p v r) {k a : Nat} (ha : r.objs[k]? = some a) :
    ∃ sig x f, v.sigs[k]? = some sig ∧ p.sigs[k]? = some (x, f) := by
  have h1 := (List.getElem?_eq_some_iff.1 ha).1
  have h2 := h1
  rw [st.len] at h1
  rw [st.len, ← st.planLen] at h2
  exact ⟨_, _, _, List.getElem?_eq_getElem h1, List.getElem?_eq_getElem h2⟩

/-- What is known of an object. -/
theorem Stands.at_obj (st : Stands m h ids p v r) {k a : Nat} (ha : r.objs[k]? = some a) :
    ∃ sig x f s, v.sigs[k]? = some sig ∧ p.sigs[k]? = some (x, f) ∧ p.sig k = (x, f) ∧ ids a = some x ∧ a < m.next ∧
      m.cells a = some (.sig s) ∧ h.Sig sig s ∧ (h a = if f then some (.sig s) else none) ∧
      ∀ b, Held h p (x.slot b) (s.slot b) := by
  obtain ⟨sig, x, f, h1, h2⟩ := st.sig_at ha
  obtain ⟨h3, s, h4, h5, h6⟩ := st.obj k a sig x f ha h1 h2
  obtain ⟨h7, s', h8, h9⟩ := st.held a x h3
  rw [h4] at h8
  cases h8
  refine ⟨sig, x, f, s, h1, h2, ?_, h3, h7, h4, h5, h6, h9⟩
  rw [SigPlan.sig, List.getD_eq_getElem?_getD, h2]
  rfl

/-- An object whose memory no type has gets another signature. `T` are the arrays that get longer: these are arrays of
lists that were free and are not any more. -/
theorem Stands.update (st : Stands m h ids p v r) {k a : Nat} {s s1 : MSig} {sig1 : Signature} {x x1 : ListIds}
    {T : Nat → Prop} (ha : r.objs[k]? = some a) (hk : p.sigs[k]? = some (x, false)) (hs : m.cells a = some (.sig s))
    (le : h.Le h1) (a1 : At h1 m1) (next : m.next ≤ m1.next)
    (cells : ∀ q < m.next, ¬T q → m1.cells q = m.cells q) (part : ∀ q < m.next, ¬T q → h1 q = h q)
    (hT : ∀ q, T q → ∃ b, (s.slot b).len ≠ 0 ∧ q = (s.slot b).arr ∧ p.free (x.slot b) = true ∧
      p1.free (x.slot b) = false)
    (hsub : ∀ n < p.next, p1.free n = true → p.free n = true) (hnext : p.next ≤ p1.next) (hused : ∀ n ∈ p1.used, n < p1.next)
    (hsigs : p1.sigs = p.sigs.set k (x1, false)) (htypes : p1.types = p.types)
    (hs1 : h1.Sig sig1 s1) (held : ∀ b, Held h1 p1 (x1.slot b) (s1.slot b))
    (own : ∀ b, (s1.slot b).len ≠ 0 → p1.free (x1.slot b) = true → m.next ≤ (s1.slot b).arr ∨ T (s1.slot b).arr ∨
      (s.slot b).len ≠ 0 ∧ (s1.slot b).arr = (s.slot b).arr ∧ x1.slot b = x.slot b)
    (two : (s1.slot false).len ≠ 0 → (s1.slot true).len ≠ 0 → (s1.slot false).arr = (s1.slot true).arr →
      p1.free (x1.slot false) = true → p1.free (x1.slot true) = true → x1.slot false = x1.slot true) :
    Stands (m1.put a (.sig s1)) h1 (fun q => if q = a then some x1 else ids q) p1 (v.setSig k sig1) r := by
  obtain ⟨sig, x', f', s', hsig, hx', -, hida, hlt, hs', hsg, hnone, hheld⟩ := st.at_obj ha
  rw [hk] at hx'
  cases hx'
  rw [hs] at hs'
  cases hs'
  rw [if_neg (by simp)] at hnone
  -- arrays are not signatures
  have hnT : ∀ a' s', m.cells a' = some (.sig s') → ¬T a' := fun a' s' hc ht => by
    obtain ⟨b, h0, rfl, -⟩ := hT a' ht
    obtain ⟨E, he⟩ := (hheld b).elems
    obtain ⟨l, hl, -⟩ := elems_arr he h0
    obtain ⟨x, hx⟩ := st.inPart.le.array hl
    rw [hc] at hx
    cases hx
  -- what the other free lists have does not get longer
  have hfree : ∀ a' x' s' b', ids a' = some x' → m.cells a' = some (.sig s') → (s'.slot b').len ≠ 0 →
      p1.free (x'.slot b') = true → ¬T (s'.slot b').arr := fun a' x' s' b' hx' hs' h0 hf ht => by
    obtain ⟨b, hb0, e, hf1, hf2⟩ := hT _ ht
    obtain ⟨-, s'', h5, h6⟩ := st.held a' x' hx'
    rw [hs'] at h5
    cases h5
    have := st.apart a a' x x' s s' b b' hida hx' hs hs' hb0 h0 e.symm hf1 (hsub _ (h6 b').lt hf)
    rw [this, hf] at hf2
    cases hf2
  have hna : h1 a = none := (part a hlt (hnT a s hs)).trans hnone
  have hids : ∀ a' x', ids a' = some x' → a' ≠ a → (m1.put a (.sig s1)).cells a' = m.cells a' := fun a' x' hx' hne => by
    obtain ⟨h5, s'', h6, -⟩ := st.held a' x' hx'
    simp only [Mem.put, if_neg hne]
    exact cells a' h5 (hnT a' s'' h6)
  have hself : (m1.put a (.sig s1)).cells a = some (.sig s1) := by simp [Mem.put]
  -- free lists of others are not where the lists of the object are now, except for the same list
  have mixed : ∀ a' x' s' b b', ids a' = some x' → m.cells a' = some (.sig s') → (s1.slot b).len ≠ 0 →
      (s'.slot b').len ≠ 0 → (s1.slot b).arr = (s'.slot b').arr → p1.free (x1.slot b) = true →
      p1.free (x'.slot b') = true → x1.slot b = x'.slot b' := fun a' x' s' b b' hx' hs' h0 h0' e hf hf' => by
    obtain ⟨-, s'', h5, h6⟩ := st.held a' x' hx'
    rw [hs'] at h5
    cases h5
    obtain ⟨E, he⟩ := (h6 b').elems
    have hlt' := elems_lt st.inPart he h0'
    rcases own b h0 hf with h7 | h7 | ⟨h7, h8, h9⟩
    · omega
    · exact absurd (e ▸ h7) (hfree a' x' s' b' hx' hs' h0' hf')
    · rw [h9] at hf ⊢
      exact st.apart a a' x x' s s' b b' hida hx' hs hs' h7 h0' (h8.symm.trans e) (hsub _ (hheld b).lt hf) (hsub _ (h6 b').lt hf')
  have hkp : ∀ (k' a' : Nat), r.objs[k']? = some a' → k' ≠ k → a' ≠ a := fun k' a' ha' hne e =>
    hne (st.inj k k' a x ha (e ▸ ha') hk).symm
  have hklen : k < p.sigs.length := (List.getElem?_eq_some_iff.1 hk).1
  have hsigk : ∀ (k' : Nat), p1.sigs[k']? = if k' = k then some (x1, false) else p.sigs[k']? := fun k' => by
    rw [hsigs]
    by_cases e : k' = k
    · subst e
      rw [if_pos rfl, List.getElem?_set_self hklen]
    · rw [if_neg e, List.getElem?_set_ne (Ne.symm e)]
  refine ⟨⟨fun q c hq => ?_, fun q c hq => a1.lt q c hq⟩, by simpa [SigVals.setSig] using st.len,
    by simpa [SigVals.setSig, hsigs] using st.planLen, ?_, ?_, ?_, ?_, htypes ▸ st.typesLen,
    fun k t w ht hw => Part.Type.mono le _ _ (st.types k t w ht hw), ?_, hused⟩
  · have hqa : q ≠ a := by
      rintro rfl
      rw [hna] at hq
      cases hq
    simpa [Mem.put, hqa] using a1.le q c hq
  · intro k1 k2 a' y h2 h3 h4
    rw [hsigk] at h4
    by_cases e : k1 = k
    · subst e
      exact st.inj k1 k2 a' x h2 h3 hk
    · rw [if_neg e] at h4
      exact st.inj k1 k2 a' y h2 h3 h4
  · intro k' a' sig' y f ha' hsig' hy
    rw [hsigk] at hy
    by_cases e : k' = k
    · subst e
      rw [ha] at ha'
      cases ha'
      rw [if_pos rfl] at hy
      cases hy
      have : sig' = sig1 := by
        have hlt' := (List.getElem?_eq_some_iff.1 hsig).1
        simpa [SigVals.setSig, List.getElem?_set_self hlt'] using hsig'.symm
      subst this
      exact ⟨if_pos rfl, s1, hself, hs1, by simpa using hna⟩
    · rw [if_neg e] at hy
      have hsig0 : v.sigs[k']? = some sig' := by
        simpa [SigVals.setSig, List.getElem?_set_ne (Ne.symm e)] using hsig'
      obtain ⟨g1, s', g2, g3, g4⟩ := st.obj k' a' sig' y f ha' hsig0 hy
      have hne := hkp k' a' ha' e
      refine ⟨(if_neg hne).trans g1, s', (hids a' y g1 hne).trans g2, g3.mono le _ _, ?_⟩
      exact (part a' (st.held a' y g1).1 (hnT a' s' g2)).trans g4
  · intro a' y hy
    by_cases e : a' = a
    · subst e
      simp only [if_true, Option.some.injEq] at hy
      subst hy
      exact ⟨Nat.lt_of_lt_of_le hlt next, s1, hself, held⟩
    · simp only [if_neg e] at hy
      obtain ⟨g1, s', g2, g3⟩ := st.held a' y hy
      refine ⟨Nat.lt_of_lt_of_le g1 next, s', (hids a' y hy e).trans g2, fun b => ?_⟩
      obtain ⟨E, he⟩ := (g3 b).elems
      refine ⟨⟨E, Part.elems_mono le he⟩, (g3 b).zero, Nat.lt_of_lt_of_le (g3 b).lt hnext, fun hf h0 l hl => ?_⟩
      rw [part _ (elems_lt st.inPart he h0) (hfree a' y s' b hy g2 h0 hf)] at hl
      exact (g3 b).ends (hsub _ (g3 b).lt hf) h0 l hl
  · intro c1 c2 y1 y2 t1 t2 b1 b2 hy1 hy2 ht1 ht2 h01 h02 e hf1 hf2
    by_cases e1 : c1 = a <;> by_cases e2 : c2 = a
    · subst e1
      cases e2
      simp only [if_true, Option.some.injEq] at hy1 hy2
      subst hy1 hy2
      rw [hself] at ht1 ht2
      cases ht1
      cases ht2
      cases b1 <;> cases b2
      · rfl
      · exact two h01 h02 e hf1 hf2
      · exact (two h02 h01 e.symm hf2 hf1).symm
      · rfl
    · subst e1
      simp only [if_true, Option.some.injEq, if_neg e2] at hy1 hy2
      subst hy1
      rw [hself] at ht1
      cases ht1
      rw [hids c2 y2 hy2 e2] at ht2
      exact mixed c2 y2 t2 b1 b2 hy2 ht2 h01 h02 e hf1 hf2
    · subst e2
      simp only [if_true, Option.some.injEq, if_neg e1] at hy1 hy2
      subst hy2
      rw [hself] at ht2
      cases ht2
      rw [hids c1 y1 hy1 e1] at ht1
      exact (mixed c1 y1 t1 b2 b1 hy1 ht1 h02 h01 e.symm hf2 hf1).symm
    · simp only [if_neg e1, if_neg e2] at hy1 hy2
      rw [hids c1 y1 hy1 e1] at ht1
      rw [hids c2 y2 hy2 e2] at ht2
      obtain ⟨-, u1, h5, h6⟩ := st.held c1 y1 hy1
      obtain ⟨-, u2, h7, h8⟩ := st.held c2 y2 hy2
      exact st.apart c1 c2 y1 y2 t1 t2 b1 b2 hy1 hy2 ht1 ht2 h01 h02 e (hsub _ (h6 b1).lt hf1) (hsub _ (h8 b2).lt hf2)
  · intro k' q y hq hy
    rw [htypes] at hy
    obtain ⟨t, ht⟩ : ∃ t, v.types[k']? = some t := by
      have := (List.getElem?_eq_some_iff.1 hq).1
      rw [← st.typesLen.1] at this
      exact ⟨_, List.getElem?_eq_getElem this⟩
    have hw := st.types k' t _ ht hq
    have hne : q ≠ a := by
      rintro rfl
      cases t <;> simp only [Part.Type] at hw
      obtain ⟨s', h5, -⟩ := hw
      rw [hnone] at h5
      cases h5
    simp only [if_neg hne]
    exact st.funcs k' q y hq hy

/-- One more signature in memory, of which nothing has been known yet. -/
theorem Stands.hold (st : Stands m h ids p v r) {a : Nat} {s : MSig} {x : ListIds} (hn : ids a = none) (hlt : a < m.next)
    (hs : m.cells a = some (.sig s)) (held : ∀ b, Held h p (x.slot b) (s.slot b))
    (apart : ∀ a' x' s' b b', ids a' = some x' → m.cells a' = some (.sig s') → (s.slot b).len ≠ 0 →
      (s'.slot b').len ≠ 0 → (s.slot b).arr = (s'.slot b').arr → p.free (x.slot b) = true →
      p.free (x'.slot b') = true → x.slot b = x'.slot b')
    (two : (s.slot false).len ≠ 0 → (s.slot true).len ≠ 0 → (s.slot false).arr = (s.slot true).arr →
      p.free (x.slot false) = true → p.free (x.slot true) = true → x.slot false = x.slot true) :
    Stands m h (fun q => if q = a then some x else ids q) p v r := by
  have old : ∀ {a' x'}, ids a' = some x' → (if a' = a then some x else ids a') = some x' := fun {a' x'} hx' => by
    rw [if_neg, hx']
    rintro rfl
    rw [hn] at hx'
    cases hx'
  refine ⟨st.inPart, st.len, st.planLen, st.inj, fun k a' sig y f h1 h2 h3 => ?_, fun a' y hy => ?_, ?_, st.typesLen,
    st.types, fun k q y h1 h2 => old (st.funcs k q y h1 h2), st.used⟩
  · obtain ⟨g1, g2⟩ := st.obj k a' sig y f h1 h2 h3
    exact ⟨old g1, g2⟩
  · by_cases e : a' = a
    · subst e
      simp only [if_true, Option.some.injEq] at hy
      subst hy
      exact ⟨hlt, s, hs, held⟩
    · simp only [if_neg e] at hy
      exact st.held a' y hy
  · intro c1 c2 y1 y2 t1 t2 b1 b2 hy1 hy2 ht1 ht2 h01 h02 e hf1 hf2
    by_cases e1 : c1 = a <;> by_cases e2 : c2 = a
    · subst e1
      cases e2
      simp only [if_true, Option.some.injEq] at hy1 hy2
      subst hy1 hy2
      rw [hs] at ht1 ht2
      cases ht1
      cases ht2
      cases b1 <;> cases b2
      · rfl
      · exact two h01 h02 e hf1 hf2
      · exact (two h02 h01 e.symm hf2 hf1).symm
      · rfl
    · subst e1
      simp only [if_true, Option.some.injEq, if_neg e2] at hy1 hy2
      subst hy1
      rw [hs] at ht1
      cases ht1
      exact apart c2 y2 t2 b1 b2 hy2 ht2 h01 h02 e hf1 hf2
    · subst e2
      simp only [if_true, Option.some.injEq, if_neg e1] at hy1 hy2
      subst hy2
      rw [hs] at ht2
      cases ht2
      exact (apart c1 y1 t1 b2 b1 hy1 ht1 h02 h01 e.symm hf2 hf1).symm
    · simp only [if_neg e1, if_neg e2] at hy1 hy2
      exact st.apart c1 c2 y1 y2 t1 t2 b1 b2 hy1 hy2 ht1 ht2 h01 h02 e hf1 hf2

/-- No list has a number from `next` on. -/
theorem Stands.later (st : Stands m h ids p v r) {n : Nat} (hn : p.next ≤ n) :
    Stands m h ids { p with next := n } v r where
  inPart := st.inPart
  len := st.len
  planLen := st.planLen
  inj := st.inj
  obj := st.obj
  held := fun a x hx => by
    obtain ⟨h1, s, h2, h3⟩ := st.held a x hx
    exact ⟨h1, s, h2, fun b => ⟨(h3 b).elems, (h3 b).zero, Nat.lt_of_lt_of_le (h3 b).lt hn, (h3 b).ends⟩⟩
  apart := st.apart
  typesLen := st.typesLen
  types := st.types
  funcs := st.funcs
  used := fun k hk => Nat.lt_of_lt_of_le (st.used k hk) hn

/-- Free memory belongs to no signature. -/
theorem Stands.unheld (st : Stands m h ids p v r) {a : Nat} (ha : m.next ≤ a) : ids a = none := by
  cases hi : ids a with
  | none => rfl
  | some x => exact absurd (st.held a x hi).1 (by omega)

end

/-! ## append -/

theorem appendElem_of (g : Growth) {h : Part} {m : Mem} {s : Slice} {E : List Elem} (a : At h m)
    (he : h.elems s = some E) (hends : s.Ends h) (x : Elem) (i : Imports) :
    ∃ s1 m1 h1, appendElem g s x m i = (.ok s1, m1, i) ∧ h.Le h1 ∧ At h1 m1 ∧ m.next ≤ m1.next ∧
      h1.elems s1 = some (E ++ [x]) ∧ s1.Ends h1 ∧ s1.len ≠ 0 ∧
      (m.next ≤ s1.arr ∨ s.len ≠ 0 ∧ s1.arr = s.arr) ∧
      (∀ q < m.next, (s.len ≠ 0 → q ≠ s.arr) → m1.cells q = m.cells q) ∧
      ∀ q < m.next, (s.len ≠ 0 → q ≠ s.arr) → h1 q = h q := by
  -- a new array with the elements, one more element and some room
  have fresh : ∀ (n : Nat) (R : List Elem), n = E.length →
      ∃ h1, h.Le h1 ∧ At h1 (m.after (.array (E ++ x :: R))) ∧ h1.elems ⟨m.next, 0, n + 1⟩ = some (E ++ [x]) ∧
        Slice.Ends h1 ⟨m.next, 0, n + 1⟩ ∧ (∀ q < m.next, (m.after (.array (E ++ x :: R))).cells q = m.cells q) ∧
        ∀ q < m.next, h1 q = h q := fun n R hn => by
    subst hn
    have hle := Part.le_add (.array (E ++ [x])) a.free
    have ha : MStep noAddr h m h (m.after (.array (E ++ x :: R))) := a.alloc_private _
    refine ⟨h.add m.next (.array (E ++ [x])), hle, ⟨fun q c hq => ?_, fun q c hq => ?_⟩, ?_, ?_, fun q hq => ?_,
      fun q hq => ?_⟩
    · by_cases hqn : q = m.next
      · subst hqn
        simp only [Part.add, if_true, Option.some.injEq] at hq
        subst hq
        exact ⟨.array (E ++ x :: R), by simp [Mem.after], .inr ⟨E ++ [x], R, rfl, by simp⟩⟩
      · simp only [Part.add, if_neg hqn] at hq
        exact ha.after.le q c hq
    · by_cases hqn : q = m.next
      · subst hqn
        exact Nat.lt_succ_self _
      · simp only [Part.add, if_neg hqn] at hq
        exact Nat.lt_succ_of_lt (a.lt q c hq)
    · have := elems_whole h m.next (E ++ [x])
      simpa using this
    · intro _ l hl
      simp only [Part.add, if_true, Option.some.injEq, Cell.array.injEq] at hl
      subst hl
      simp
    · exact ha.same q hq id
    · have : q ≠ m.next := by omega
      simp [Part.add, this]
  unfold appendElem
  by_cases h0 : s.len = 0
  · rw [if_pos h0]
    have hE : E = [] := by
      have := Part.elems_length he
      rw [h0] at this
      exact List.length_eq_zero_iff.1 this
    subst hE
    obtain ⟨h1, g1, g2, g3, g4, g5, g6⟩ := fresh 0 (List.replicate (g m s) Elem.zeroArg) rfl
    exact ⟨⟨m.next, 0, 1⟩, _, h1, rfl, g1, g2, Nat.le_succ _, g3, g4, by simp, .inl (Nat.le_refl _),
      fun q hq _ => g5 q hq, fun q hq _ => g6 q hq⟩
  · rw [if_neg h0]
    obtain ⟨l, hl, hle, rfl⟩ := elems_arr he h0
    have hlen := hends h0 l hl
    obtain ⟨r, hr⟩ := a.le.array hl
    simp only [MM.bind_apply, load, hr]
    have htake : ((l ++ r).drop s.off).take s.len = (l.drop s.off).take s.len := by
      rw [List.drop_append_of_le_length (by omega), List.take_append_of_le_length (by rw [List.length_drop]; omega)]
    by_cases hroom : s.off + s.len < (l ++ r).length
    · rw [if_pos hroom]
      have hll : l.length = s.off + s.len := by omega
      obtain ⟨y, r', rfl⟩ : ∃ y r', r = y :: r' := by
        cases r with
        | nil =>
          simp at hroom
          omega
        | cons y r' => exact ⟨y, r', rfl⟩
      have hset : (l ++ y :: r').set (s.off + s.len) x = l ++ x :: r' := by
        rw [← hll]
        simp
      rw [hset]
      have hne : ∀ q, q ≠ s.arr → (m.put s.arr (.array (l ++ x :: r'))).cells q = m.cells q := fun q hq => by
        simp [Mem.put, hq]
      refine ⟨⟨s.arr, s.off, s.len + 1⟩, m.put s.arr (.array (l ++ x :: r')), h.add s.arr (.array (l ++ [x])), rfl,
        fun q c hq => ?_, ⟨fun q c hq => ?_, fun q c hq => ?_⟩, Nat.le_refl _, ?_, ?_, by simp, .inr ⟨h0, rfl⟩,
        fun q _ hq => hne q (hq h0), fun q _ hq => by simp [Part.add, hq h0]⟩
      · by_cases hqs : q = s.arr
        · subst hqs
          rw [hl] at hq
          cases hq
          exact ⟨.array (l ++ [x]), by simp [Part.add], .inr ⟨l, [x], rfl, rfl⟩⟩
        · exact ⟨c, by simp [Part.add, hqs, hq], .refl c⟩
      · by_cases hqs : q = s.arr
        · subst hqs
          simp only [Part.add, if_true, Option.some.injEq] at hq
          subst hq
          exact ⟨.array (l ++ x :: r'), by simp [Mem.put], .inr ⟨l ++ [x], r', rfl, by simp⟩⟩
        · simp only [Part.add, if_neg hqs] at hq
          rw [hne q hqs]
          exact a.le q c hq
      · by_cases hqs : q = s.arr
        · subst hqs
          exact a.lt _ _ hl
        · simp only [Part.add, if_neg hqs] at hq
          exact a.lt q c hq
      · unfold Part.elems
        rw [if_neg (by simp)]
        simp only [Part.add, if_true, List.length_append, List.length_cons, List.length_nil]
        rw [if_pos (by omega), List.drop_append_of_le_length (by omega), List.take_of_length_le (by simp; omega),
          List.take_of_length_le (by rw [List.length_drop]; omega)]
      · intro _ l' hl'
        simp only [Part.add, if_true, Option.some.injEq, Cell.array.injEq] at hl'
        subst hl'
        simp
        omega
    · rw [if_neg hroom, htake]
      obtain ⟨h1, g1, g2, g3, g4, g5, g6⟩ := fresh s.len (List.replicate (g m s) Elem.zeroArg) (by simp; omega)
      exact ⟨⟨m.next, 0, s.len + 1⟩, _, h1, rfl, g1, g2, Nat.le_succ _, g3, g4, by simp, .inl (Nat.le_refl _),
        fun q hq _ => g5 q hq, fun q hq _ => g6 q hq⟩

end Gopoet
