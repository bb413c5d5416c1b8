import Verif.Proof.MemoryFrame
import Verif.Proof.ImportsLemmas
/-!
# Qualification in memory computes what qualification of trees computes
-/

namespace Gopoet
open MM

/-- The part `h` belongs to the memory `m`. -/
structure At (h : Part) (m : Mem) : Prop where
  le : h.Le m.cells
  lt : ∀ p c, h p = some c → p < m.next

/-- From the part `h` of `m` to the part `h'` of `m'`: the part grew by addresses that were free, and of
the addresses that were in use only those in `W` were stored to. -/
structure MStep (W : Nat → Prop) (h : Part) (m : Mem) (h' : Part) (m' : Mem) : Prop where
  le : h.Le h'
  after : At h' m'
  next : m.next ≤ m'.next
  old : ∀ p < m.next, h' p = h p
  same : ∀ p < m.next, ¬W p → m'.cells p = m.cells p

theorem Cell.Le.refl (c : Cell) : c.Le c := .inl rfl
theorem Cell.Le.trans {c c' c'' : Cell} (a : c.Le c') (b : c'.Le c'') : c.Le c'' := by
  rcases a with rfl | ⟨l, r, rfl, rfl⟩
  · exact b
  · rcases b with rfl | ⟨l', r', h1, rfl⟩
    · exact .inr ⟨l, r, rfl, rfl⟩
    · cases h1
      exact .inr ⟨l, r ++ r', rfl, by simp⟩

theorem Part.Le.refl (h : Part) : h.Le h := fun _ c hp => ⟨c, hp, .refl c⟩
theorem Part.Le.trans {h h' h'' : Part} (a : h.Le h') (b : h'.Le h'') : h.Le h'' := fun p c hp => by
  obtain ⟨c', h1, h2⟩ := a p c hp
  obtain ⟨c'', h3, h4⟩ := b p c' h1
  exact ⟨c'', h3, h2.trans h4⟩

/-- What is no array is there as a whole. -/
theorem Part.Le.get {h h' : Part} (le : h.Le h') {p : Nat} {c : Cell} (hp : h p = some c)
    (hc : ∀ l, c ≠ .array l := by nofun) : h' p = some c := by
  obtain ⟨c', h1, h2 | ⟨l, -, h2, -⟩⟩ := le p c hp
  · rw [h1, h2]
  · exact absurd h2 (hc l)

/-- Of an array there are at least the first elements. -/
theorem Part.Le.array {h h' : Part} (le : h.Le h') {p : Nat} {l : List Elem} (hp : h p = some (.array l)) :
    ∃ r, h' p = some (.array (l ++ r)) := by
  obtain ⟨c', h1, h2 | ⟨l', r, h2, h3⟩⟩ := le p _ hp
  · exact ⟨[], by rw [h1, h2, List.append_nil]⟩
  · cases h2
    exact ⟨r, by rw [h1, h3]⟩

theorem MStep.refl {W : Nat → Prop} {h : Part} {m : Mem} (a : At h m) : MStep W h m h m :=
  ⟨.refl h, a, Nat.le_refl _, fun _ _ => rfl, fun _ _ _ => rfl⟩

theorem MStep.trans {W : Nat → Prop} {h h' h'' : Part} {m m' m'' : Mem} (a : MStep W h m h' m')
    (b : MStep W h' m' h'' m'') : MStep W h m h'' m'' where
  le := a.le.trans b.le
  after := b.after
  next := Nat.le_trans a.next b.next
  old := fun p hp => (b.old p (Nat.lt_of_lt_of_le hp a.next)).trans (a.old p hp)
  same := fun p hp hw => (b.same p (Nat.lt_of_lt_of_le hp a.next) hw).trans (a.same p hp hw)

theorem MStep.weaken {W W' : Nat → Prop} {h h' : Part} {m m' : Mem} (a : MStep W h m h' m')
    (hw : ∀ p < m.next, W p → W' p) : MStep W' h m h' m' :=
  ⟨a.le, a.after, a.next, a.old, fun p hp hn => a.same p hp fun hW => hn (hw p hp hW)⟩

/-- An address in use that does not belong to the part does not get into it. -/
theorem MStep.outside {W : Nat → Prop} {h h' : Part} {m m' : Mem} (a : MStep W h m h' m') {p : Nat}
    (hp : p < m.next) (hn : h p = none) : h' p = none := (a.old p hp).trans hn

/-- `x` does in memory what `y` does with trees. -/
def Sim {α β : Type} (W : Nat → Prop) (x : MM β) (y : IM α) (i : Imports) (h : Part) (m : Mem)
    (P : α → β → Part → Mem → Prop) : Prop :=
  match y i with
  | (.ok a, i') => ∃ b h' m', x m i = (.ok b, m', i') ∧ MStep W h m h' m' ∧ P a b h' m'
  | (.panic, i') => ∃ m', x m i = (.panic, m', i')
  | (.hang, i') => ∃ m', x m i = (.hang, m', i')

section
variable {α β γ δ : Type} {W : Nat → Prop} {i : Imports} {h : Part} {m : Mem}

theorem MM.bind_apply (x : MM β) (f : β → MM δ) (m : Mem) (i : Imports) :
    (x >>= f) m i = match x m i with
      | (.ok a, m, i) => f a m i
      | (.panic, m, i) => (.panic, m, i)
      | (.hang, m, i) => (.hang, m, i) := rfl

theorem Sim.pure {a : α} {b : β} {P : α → β → Part → Mem → Prop} (ha : At h m) (hP : P a b h m) :
    Sim W (pure b) (pure a) i h m P := ⟨b, h, m, rfl, .refl ha, hP⟩

theorem Sim.panic {P : α → β → Part → Mem → Prop} : Sim W (panic : MM β) (IM.panic : IM α) i h m P := ⟨m, rfl⟩

theorem Sim.bind {x : MM β} {y : IM α} {f : β → MM δ} {g : α → IM γ} {P : α → β → Part → Mem → Prop}
    {Q : γ → δ → Part → Mem → Prop} (hx : Sim W x y i h m P)
    (hf : ∀ a b h' m' i', MStep W h m h' m' → P a b h' m' → Sim W (f b) (g a) i' h' m' Q) :
    Sim W (x >>= f) (y >>= g) i h m Q := by
  unfold Sim at hx ⊢
  rw [IM.bind_apply, MM.bind_apply]
  rcases hy : y i with ⟨a | _ | _, i'⟩
  · rw [hy] at hx
    obtain ⟨b, h', m', e, s, p⟩ := hx
    have := hf a b h' m' i' s p
    unfold Sim at this
    rw [e]
    dsimp only
    rcases hg : g a i' with ⟨c | _ | _, i''⟩
    · rw [hg] at this
      obtain ⟨d, h'', m'', e', s', q⟩ := this
      exact ⟨d, h'', m'', e', s.trans s', q⟩
    · rw [hg] at this
      exact this
    · rw [hg] at this
      exact this
  · rw [hy] at hx
    obtain ⟨m', e⟩ := hx
    exact ⟨m', by rw [e]⟩
  · rw [hy] at hx
    obtain ⟨m', e⟩ := hx
    exact ⟨m', by rw [e]⟩

/-- Something that happens only in memory. -/
theorem Sim.left {x : MM β} {b : β} {h' : Part} {m' : Mem} {f : β → MM δ} {y : IM γ}
    {Q : γ → δ → Part → Mem → Prop} (hx : x m i = (.ok b, m', i)) (s : MStep W h m h' m')
    (hf : Sim W (f b) y i h' m' Q) : Sim W (x >>= f) y i h m Q := by
  unfold Sim at hf ⊢
  rw [MM.bind_apply, hx]
  rcases hy : y i with ⟨a | _ | _, i'⟩
  · rw [hy] at hf
    obtain ⟨d, h'', m'', e', s', q⟩ := hf
    exact ⟨d, h'', m'', e', s.trans s', q⟩
  · rw [hy] at hf
    exact hf
  · rw [hy] at hf
    exact hf

theorem Sim.mono {x : MM β} {y : IM α} {P Q : α → β → Part → Mem → Prop} {W' : Nat → Prop}
    (hx : Sim W x y i h m P) (hw : ∀ p < m.next, W p → W' p)
    (hPQ : ∀ a b h' m', MStep W h m h' m' → P a b h' m' → Q a b h' m') : Sim W' x y i h m Q := by
  unfold Sim at hx ⊢
  rcases hy : y i with ⟨a | _ | _, i'⟩
  · rw [hy] at hx
    obtain ⟨b, h', m', e, s, p⟩ := hx
    exact ⟨b, h', m', e, s.weaken hw, hPQ _ _ _ _ s p⟩
  · rw [hy] at hx
    exact hx
  · rw [hy] at hx
    exact hx

theorem Sim.steps {x : MM β} {y : IM α} {P : α → β → Part → Mem → Prop} {W' : Nat → Prop}
    (hx : Sim W x y i h m P) (hw : ∀ p < m.next, W p → W' p) :
    Sim W' x y i h m fun a b h' m' => MStep W h m h' m' ∧ P a b h' m' :=
  hx.mono hw fun _ _ _ _ s p => ⟨s, p⟩

/-- A computation on trees that is followed by something pure. -/
theorem Sim.right {x : MM β} {y : IM α} {P : α → β → Part → Mem → Prop} {k : α → γ}
    {Q : γ → β → Part → Mem → Prop} (hx : Sim W x y i h m P)
    (hPQ : ∀ a b h' m', MStep W h m h' m' → P a b h' m' → Q (k a) b h' m') :
    Sim W x (y >>= fun a => Pure.pure (k a)) i h m Q := by
  unfold Sim at hx ⊢
  rw [IM.bind_apply]
  rcases hy : y i with ⟨a | _ | _, i'⟩
  · rw [hy] at hx
    obtain ⟨b, h', m', e, s, p⟩ := hx
    exact ⟨b, h', m', e, s, hPQ _ _ _ _ s p⟩
  · rw [hy] at hx
    exact hx
  · rw [hy] at hx
    exact hx

theorem Sim.onImports {y : IM α} {P : α → α → Part → Mem → Prop} (ha : At h m) (hP : ∀ a, P a a h m) :
    Sim W (onImports y) y i h m P := by
  unfold Sim MM.onImports
  rcases hy : y i with ⟨a | _ | _, i'⟩
  · exact ⟨a, h, m, rfl, .refl ha, hP a⟩
  · exact ⟨m, rfl⟩
  · exact ⟨m, rfl⟩

end

/-! ## Memory operations -/

/-- The part with one more address. -/
def Part.add (h : Part) (p : Nat) (c : Cell) : Part := fun q => if q = p then some c else h q

/-- The memory after an allocation. -/
def Mem.after (m : Mem) (c : Cell) : Mem :=
  { m with cells := fun p => if p = m.next then some c else m.cells p, next := m.next + 1 }

theorem alloc_apply (c : Cell) (m : Mem) (i : Imports) : alloc c m i = (.ok m.next, m.after c, i) := rfl

theorem At.free {h : Part} {m : Mem} (a : At h m) : h m.next = none := by
  cases hn : h m.next with
  | none => rfl
  | some c => exact absurd (a.lt _ c hn) (by omega)

theorem Part.le_add {h : Part} {p : Nat} (c : Cell) (hn : h p = none) : h.Le (h.add p c) := by
  intro q d hq
  have : q ≠ p := by
    rintro rfl
    simp [hn] at hq
  exact ⟨d, by simp [Part.add, this, hq], .refl d⟩

/-- Allocation, the new address not belonging to the part. -/
theorem At.alloc_private {W : Nat → Prop} {h : Part} {m : Mem} (a : At h m) (c : Cell) :
    MStep W h m h (m.after c) where
  le := .refl h
  after := ⟨fun p d hp => by
      have : p ≠ m.next := Nat.ne_of_lt (a.lt p d hp)
      simp [Mem.after, this, a.le p d hp], fun p d hp => Nat.lt_succ_of_lt (a.lt p d hp)⟩
  next := Nat.le_succ _
  old := fun _ _ => rfl
  same := fun p hp _ => by
    have : p ≠ m.next := by omega
    simp [Mem.after, this]

/-- An address in use joins the part. -/
theorem At.join {h : Part} {m : Mem} (a : At h m) {p : Nat} {c : Cell}
    (hc : m.cells p = some c) (hp : p < m.next) : At (h.add p c) m where
  le := fun q d hq => by
    by_cases hqp : q = p
    · subst hqp
      simp only [Part.add, if_true] at hq
      exact ⟨d, hc.trans hq, .refl d⟩
    · simp only [Part.add, if_neg hqp] at hq
      exact a.le q d hq
  lt := fun q d hq => by
    by_cases hqp : q = p
    · subst hqp
      exact hp
    · simp only [Part.add, if_neg hqp] at hq
      exact a.lt q d hq

/-- Allocation, the new address belonging to the part. -/
theorem At.alloc {W : Nat → Prop} {h : Part} {m : Mem} (a : At h m) (c : Cell) :
    MStep W h m (h.add m.next c) (m.after c) :=
  have s : MStep W h m h (m.after c) := a.alloc_private c
  { le := Part.le_add c a.free
    after := s.after.join (by simp [Mem.after]) (Nat.lt_succ_self _)
    next := s.next
    old := fun p hp => by
      have : p ≠ m.next := Nat.ne_of_lt hp
      simp [Part.add, this]
    same := s.same }

theorem load_of_at {h : Part} {m : Mem} (a : At h m) {p : Nat} {c : Cell} (hp : h p = some c)
    (i : Imports) (hc : ∀ l, c ≠ .array l := by nofun) : load p m i = (.ok c, m, i) := by
  simp [load, a.le.get hp hc]

theorem loadSig_of {m : Mem} {p : Nat} {s : MSig} (hp : m.cells p = some (.sig s)) (i : Imports) :
    loadSig p m i = (.ok s, m, i) := by
  simp only [loadSig, MM.bind_apply, load, hp]
  rfl

theorem Part.elems_mono {h h' : Part} (le : h.Le h') {s : Slice} {l : List Elem} (hl : h.elems s = some l) :
    h'.elems s = some l := by
  unfold Part.elems at hl ⊢
  by_cases h0 : s.len = 0
  · rw [if_pos h0] at hl ⊢
    exact hl
  · rw [if_neg h0] at hl ⊢
    split at hl
    · rename_i l' hc
      obtain ⟨r, hr⟩ := le.array hc
      rw [hr]
      split at hl
      · rename_i hlen
        cases hl
        dsimp only
        rw [if_pos (by rw [List.length_append]; omega), List.drop_append_of_le_length (by omega),
          List.take_append_of_le_length (by rw [List.length_drop]; omega)]
      · cases hl
    · cases hl

theorem Part.elems_length {h : Part} {s : Slice} {l : List Elem} (hl : h.elems s = some l) : l.length = s.len := by
  unfold Part.elems at hl
  by_cases h0 : s.len = 0
  · rw [if_pos h0] at hl
    cases hl
    simp [h0]
  · rw [if_neg h0] at hl
    split at hl
    · split at hl
      · cases hl
        simp
        omega
      · cases hl
    · cases hl

theorem loadSlice_of_at {h : Part} {m : Mem} (a : At h m) {s : Slice} {l : List Elem}
    (hl : h.elems s = some l) (i : Imports) : loadSlice s m i = (.ok l, m, i) := by
  unfold Part.elems at hl
  unfold loadSlice
  by_cases h0 : s.len = 0
  · rw [if_pos h0] at hl ⊢
    cases hl
    rfl
  · rw [if_neg h0] at hl ⊢
    split at hl
    · rename_i l' hc
      obtain ⟨r, hr⟩ := a.le.array hc
      rw [hr]
      split at hl
      · cases hl
        dsimp only
        rw [List.drop_append_of_le_length (by omega), List.take_append_of_le_length (by rw [List.length_drop]; omega)]
      · cases hl
    · cases hl

theorem loadElem_of_at {h : Part} {m : Mem} (a : At h m) {s : Slice} {pre suf : List Elem} {e : Elem}
    (hl : h.elems s = some (pre ++ e :: suf)) (i : Imports) :
    loadElem s pre.length m i = (.ok e, m, i) := by
  simp only [loadElem, MM.bind_apply, loadSlice_of_at a hl]
  simp
  rfl

theorem elems_whole (h : Part) (p : Nat) (l : List Elem) :
    (h.add p (.array l)).elems ⟨p, 0, l.length⟩ = some l := by
  unfold Part.elems
  by_cases h0 : l.length = 0
  · simp only [if_pos h0]
    rw [List.length_eq_zero_iff.1 h0]
  · simp [h0, Part.add]

theorem copySlice_of_at {h : Part} {m : Mem} (a : At h m) {s : Slice} {l : List Elem}
    (hl : h.elems s = some l) (i : Imports) :
    copySlice s m i = (.ok ⟨m.next, 0, l.length⟩, m.after (.array l), i) := by
  simp only [copySlice, MM.bind_apply, loadSlice_of_at a hl, alloc_apply, Part.elems_length hl]
  rfl

/-- The memory after a store. -/
def Mem.put (m : Mem) (p : Nat) (c : Cell) : Mem :=
  { m with cells := fun q => if q = p then some c else m.cells q, stores := p :: m.stores }

theorem store_apply (p : Nat) (c : Cell) (m : Mem) (i : Imports) : store p c m i = (.ok (), m.put p c, i) := rfl

theorem At.put {W : Nat → Prop} {h : Part} {m : Mem} (a : At h m) {p : Nat} (c : Cell) (hn : h p = none)
    (hw : p < m.next → W p) : MStep W h m h (m.put p c) where
  le := .refl h
  after := ⟨fun q d hq => by
      have : q ≠ p := by
        rintro rfl
        simp [hn] at hq
      simp [Mem.put, this, a.le q d hq], a.lt⟩
  next := Nat.le_refl _
  old := fun _ _ => rfl
  same := fun q hq hW => by
    have : q ≠ p := by
      rintro rfl
      exact hW (hw hq)
    simp [Mem.put, this]

theorem storeElem_apply {m : Mem} {p n : Nat} {D E : List Elem} {e y : Elem}
    (hc : m.cells p = some (.array (D ++ e :: E))) (hn : D.length < n) (i : Imports) :
    storeElem ⟨p, 0, n⟩ D.length y m i = (.ok (), m.put p (.array (D ++ y :: E)), i) := by
  simp only [storeElem, MM.bind_apply, load, hc, if_pos hn, Nat.zero_add]
  rw [store_apply]
  simp

/-! ## The loop -/

/-- The loops on trees. -/
def listQ {α : Type} (g : α → IM (α × Bool)) : List α → IM (List α × Bool)
  | [] => pure ([], false)
  | x :: xs => do
    let y ← g x
    let ys ← listQ g xs
    pure (y.1 :: ys.1, y.2 || ys.2)

/-- What the function for one element has to do. -/
def ElemSim {α : Type} (W : Nat → Prop) (R : Part → α → Elem → Prop) (f : Elem → MM (Option Elem))
    (g : α → IM (α × Bool)) (x : α) : Prop :=
  ∀ e h m i, At h m → (∀ p, W p → p < m.next ∧ h p = none) → R h x e →
    Sim W (f e) (g x) i h m fun a o h' _ =>
      match o with
      | none => a.2 = false ∧ R h' a.1 e
      | some y => a.2 = true ∧ R h' a.1 y

/-- The elements of two lists are related, one by one. -/
inductive Each {α : Type} (R : α → Elem → Prop) : List α → List Elem → Prop
  | nil : Each R [] []
  | cons {x : α} {e : Elem} {l : List α} {l' : List Elem} : R x e → Each R l l' → Each R (x :: l) (e :: l')

theorem Each.mono {α : Type} {R R' : α → Elem → Prop} (hR : ∀ x e, R x e → R' x e) :
    ∀ {l : List α} {l' : List Elem}, Each R l l' → Each R' l l'
  | _, _, .nil => .nil
  | _, _, .cons h t => .cons (hR _ _ h) (Each.mono hR t)

/-- The slice that is built: an array outside of the part. -/
structure Building (W : Nat → Prop) (h : Part) (m : Mem) (n : Nat) (l : List Elem) (r : Slice) : Prop where
  off : r.off = 0
  len : r.len = n
  cell : m.cells r.arr = some (.array l)
  lt : r.arr < m.next
  out : h r.arr = none
  priv : ¬W r.arr

theorem Building.step {W : Nat → Prop} {h h' : Part} {m m' : Mem} {n : Nat} {l : List Elem} {r : Slice}
    (b : Building W h m n l r) (s : MStep W h m h' m') : Building W h' m' n l r :=
  ⟨b.off, b.len, (s.same _ b.lt b.priv).trans b.cell, Nat.lt_of_lt_of_le b.lt s.next, s.outside b.lt b.out, b.priv⟩

theorem sim_rangeLoop {α : Type} {W : Nat → Prop} {R : Part → α → Elem → Prop}
    (mono : ∀ {h h' x e}, Part.Le h h' → R h x e → R h' x e) {f : Elem → MM (Option Elem)}
    {g : α → IM (α × Bool)} (s : Slice) :
    ∀ (xs : List α), (∀ x ∈ xs, ElemSim W R f g x) →
      ∀ (pre D E : List Elem) (ret : Option Slice) (h : Part) (m : Mem) (i : Imports), At h m →
      (∀ p, W p → p < m.next ∧ h p = none) → h.elems s = some (pre ++ E) → D.length = pre.length →
      Each (R h) xs E → (ret = none → D = pre) →
      (∀ r, ret = some r → Building W h m s.len (D ++ E) r) →
      Sim (fun p => W p ∨ ∃ r, ret = some r ∧ r.arr = p) (rangeLoop f s E.length pre.length ret) (listQ g xs) i h m
        fun a o h' m' => ∃ Y, Each (R h') a.1 Y ∧
          match o with
          | none => ret = none ∧ a.2 = false ∧ Y = E
          | some r => (ret.isSome ∨ a.2 = true) ∧ Building W h' m' s.len (D ++ Y) r ∧
              (ret = some r ∨ ret = none ∧ m.next ≤ r.arr)
  | [], _, pre, D, _, ret, h, m, i, a, _, _, _, .nil, hD, hr => by
    refine .pure a ⟨[], .nil, ?_⟩
    cases ret with
    | none => exact ⟨rfl, rfl, rfl⟩
    | some r => exact ⟨.inl rfl, hr r rfl, .inl rfl⟩
  | x :: xs, hf, pre, D, e :: E, ret, h, m, i, a, hW, hl, hlen, .cons hx hxs, hD, hr => by
    rw [listQ]
    refine .left (loadElem_of_at a hl i) (.refl a) ?_
    refine ((hf x (by simp) e h m i a hW hx).steps fun p _ hp => Or.inl hp).bind ?_
    rintro ⟨x', c⟩ o h1 m1 i1 - ⟨s1, hp⟩
    have hW1 : ∀ p, W p → p < m1.next ∧ h1 p = none := fun p hp =>
      ⟨Nat.lt_of_lt_of_le (hW p hp).1 s1.next, s1.outside (hW p hp).1 (hW p hp).2⟩
    have hl1 : h1.elems s = some ((pre ++ [e]) ++ E) := by
      rw [List.append_assoc]
      exact Part.elems_mono s1.le hl
    have hxs1 : Each (R h1) xs E := Each.mono (fun _ _ => mono s1.le) hxs
    have hsl : s.len = pre.length + (E.length + 1) := by
      rw [← Part.elems_length hl]
      simp
    cases o with
    | none =>
      obtain ⟨hc, hx'⟩ := hp
      dsimp only at hc hx'
      have ih := sim_rangeLoop (R := R) (W := W) mono (f := f) (g := g) s xs (fun y hy => hf y (by simp [hy])) (pre ++ [e]) (D ++ [e])
        E ret h1 m1 i1 s1.after hW1 hl1 (by simp [hlen]) hxs1 (fun hn => by rw [hD hn])
        (fun r hr' => by
          have := (hr r hr').step s1
          simpa using this)
      rw [List.length_append] at ih
      refine ih.right ?_
      rintro ⟨ys, cs⟩ o h2 m2 s2 ⟨Y, hY, ho⟩
      refine ⟨e :: Y, .cons (mono s2.le hx') hY, ?_⟩
      cases o with
      | none =>
        obtain ⟨h1, h2, h3⟩ := ho
        exact ⟨h1, by simpa [hc] using h2, by rw [h3]⟩
      | some r =>
        obtain ⟨h3, h4, h5⟩ := ho
        refine ⟨h3.imp id fun h => by simp at h; simp [h], by simpa using h4, h5.imp id fun h => ⟨h.1, ?_⟩⟩
        exact Nat.le_trans s1.next h.2
    | some y =>
      obtain ⟨hc, hx'⟩ := hp
      dsimp only at hc hx'
      -- after `orCopy` there is a slice to store to
      have key : ∀ (r : Slice) (m2 : Mem), At h1 m2 → m1.next ≤ m2.next → Building W h1 m2 s.len (D ++ e :: E) r →
          Sim (fun p => W p ∨ r.arr = p)
            (storeElem r pre.length y >>= fun _ => rangeLoop f s E.length (pre.length + 1) (some r))
            (listQ g xs >>= fun ys => pure (x' :: ys.1, c || ys.2)) i1 h1 m2
            fun a o h' m' => ∃ Y, Each (R h') a.1 Y ∧ a.2 = true ∧ o = some r ∧
              Building W h' m' s.len (D ++ Y) r := by
        intro r m2 a2 hn b
        obtain ⟨ρ, off, len⟩ := r
        have hoff := b.off
        have hlen' := b.len
        dsimp only at hoff hlen'
        subst hoff hlen'
        rw [← hlen]
        refine .left (storeElem_apply b.cell (by omega) i1) (a2.put _ b.out fun _ => .inr rfl) ?_
        have s3 : MStep (fun p => W p ∨ ρ = p) h1 m2 h1 (m2.put ρ (.array (D ++ y :: E))) :=
          a2.put _ b.out fun _ => .inr rfl
        have ih := sim_rangeLoop (R := R) (W := W) mono (f := f) (g := g) s xs (fun y hy => hf y (by simp [hy])) (pre ++ [e]) (D ++ [y])
          E (some ⟨ρ, 0, s.len⟩) h1 (m2.put ρ (.array (D ++ y :: E))) i1 s3.after
          (fun p hp => ⟨Nat.lt_of_lt_of_le (hW1 p hp).1 hn, (hW1 p hp).2⟩) hl1 (by simp [hlen]) hxs1
          (fun hn => by cases hn)
          (fun r hr' => by
            cases hr'
            exact ⟨rfl, rfl, by simp [Mem.put], b.lt, b.out, b.priv⟩)
        rw [List.length_append, ← hlen] at ih
        refine (ih.steps (W' := fun p => W p ∨ ρ = p) ?_).right ?_
        · rintro p - (h | ⟨r, h, h'⟩)
          · exact .inl h
          · cases h
            exact .inr h'
        rintro ⟨ys, cs⟩ o h2 m2 s2 ⟨-, Y, hY, ho⟩
        refine ⟨y :: Y, .cons (mono s2.le hx') hY, by simp [hc], ?_⟩
        cases o with
        | none => cases ho.1
        | some r =>
          obtain ⟨h3, h4, h5⟩ := ho
          have : r = ⟨ρ, 0, s.len⟩ := by
            rcases h5 with h | h
            · exact (Option.some.inj h).symm
            · cases h.1
          subst this
          exact ⟨rfl, by simpa using h4⟩
      cases ret with
      | none =>
        have hD' := hD rfl
        subst hD'
        have hl1' : h1.elems s = some (D ++ e :: E) := by simpa using hl1
        have sa : MStep (fun p => W p ∨ m1.next = p) h1 m1 h1 (m1.after (.array (D ++ e :: E))) :=
          s1.after.alloc_private _
        have k := key ⟨m1.next, 0, (D ++ e :: E).length⟩ _ sa.after sa.next
          ⟨rfl, Part.elems_length hl1', by simp [Mem.after], Nat.lt_succ_self _, s1.after.free,
            fun hw => Nat.lt_irrefl _ (hW1 _ hw).1⟩
        refine Sim.mono (Sim.left (copySlice_of_at s1.after hl1' i1) sa k) ?_ ?_
        · rintro p hp (h | rfl)
          · exact .inl h
          · omega
        · rintro a o h' m' - ⟨Y, hY, hc', rfl, hb⟩
          exact ⟨Y, hY, .inr hc', hb, .inr ⟨rfl, s1.next⟩⟩
      | some r =>
        refine (key r m1 s1.after (Nat.le_refl _) ((hr r rfl).step s1)).mono ?_ ?_
        · rintro p hp (h | h)
          · exact .inl h
          · exact .inr ⟨r, rfl, h⟩
        · rintro a o h' m' - ⟨Y, hY, hc', rfl, hb⟩
          exact ⟨Y, hY, .inr hc', hb, .inl rfl⟩

end Gopoet
