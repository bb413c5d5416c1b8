import Verif.Props.Memory
import Verif.Props.Templates
import Verif.Proof.DataFrame
import Verif.Proof.DataRefine
import Verif.Proof.NoHang
import Verif.Proof.Trees
/-! Properties C51 to C53: `Imports.QualifyTemplateData` with memory. -/

namespace Gopoet
open Imports

/-! ## C51: the given data is not written -/

/-- C51: QualifyTemplateData writes no memory that exists when it is called: for every memory (with any sharing,
even cycles), every data and however far it gets, also if it panics. -/
theorem C51_no_writes (h : Heap) (fuel : Nat) (v : DVal) (m : Mem) (i : Imports) :
    m.Untouched (qualifyTemplateDataM h fuel v m i).2.1 :=
  Framed.untouched (fun b => framed_qualifyTemplateDataM b h fuel v) m i

/-- C51: all data that is in memory, whether it is the argument, shares memory with the argument or has nothing
to do with it, is the same afterwards. -/
theorem C51_data_keeps {m : Mem} (hg : m.Good) {t : TVal} {w : DVal} (hw : m.IsData t w)
    (h : Heap) (fuel : Nat) (v : DVal) (i : Imports) : (qualifyTemplateDataM h fuel v m i).2.1.IsData t w :=
  Part.Data.mono ((C51_no_writes h fuel v m i).le hg) t w hw

/-- C51: all types that are in memory are the same afterwards. -/
theorem C51_types_keep {m : Mem} (hg : m.Good) {t : TypeName} {w : MType} (hw : m.IsType t w)
    (h : Heap) (fuel : Nat) (v : DVal) (i : Imports) : (qualifyTemplateDataM h fuel v m i).2.1.IsType t w :=
  Part.Type.mono ((C51_no_writes h fuel v m i).le hg) t w hw

/-! ## C52: sharing has no influence -/

/-- C52: called on data in memory that is the tree `t` (with any sharing, no cycles), QualifyTemplateData returns
(with enough fuel) data that is the tree which the model on trees says, or panics if that says so. Keys of maps
that are pointers or types may be shared, too (a map has each of them once); but keys that are structs or arrays must
not contain pointers or types. -/
theorem C52_sharing_irrelevant (h : Heap) {m : Mem} (hg : m.Good) {t : TVal} {v : DVal} (hd : m.IsData t v)
    (hk : t.simpleKeys = true) (ht : t.isIface = false) (i : Imports) :
    ∃ n, ∀ fuel ≥ n, Agrees (qualifyTemplateDataM h fuel v) (qualifyTemplateData h t) m i
      fun m' t' v' => m'.IsData t' v' := by
  refine ⟨t.need + 1, fun fuel hf => ?_⟩
  have sim := sim_qualifyTemplateDataM h hf hk ht i hg.at hd
  have := agrees_of_sim (y := qualifyData h true (.iface acceptsAll t) >>= fun a => pure (a.1.inIface, a.2))
    (P := fun m' t' v' => m'.IsData t' v') (fun b => framed_qualifyTemplateDataM b h fuel v)
    (sim.right (k := fun a => (a.1.inIface, a.2))
      (Q := fun (a : TVal × Bool) r h' _ => h'.Data a.1 r) fun a b h' m' _ hp => hp.1)
    (fun a b h' m' st _ q => Part.Data.mono st.after.le _ _ q)
  rw [IM.bind_assoc] at this
  have e : qualifyTemplateData h t = qualifyData h true (.iface acceptsAll t) >>= fun a =>
      pure (a.1.inIface, a.2) >>= fun a => pure a.1 := by
    funext i
    rw [qualifyTemplateData, IM.bind_apply, IM.bind_apply]
    rcases qualifyData h true (.iface acceptsAll t) i with ⟨⟨a, c⟩ | _ | _, i'⟩
    · cases a <;> rfl
    · rfl
    · rfl
  rw [e]
  exact this

/-- C52: the very same value (the same pointers, slices and maps) is returned if no reference in the data needs
another package name. -/
theorem C52_same_value (h : Heap) {m : Mem} (hg : m.Good) {t : TVal} {v : DVal} (hd : m.IsData t v)
    (hk : t.simpleKeys = true) (ht : t.isIface = false)
    (hv : (TVal.iface acceptsAll t).validTypes = true) (i : Imports) :
    ∃ n, ∀ fuel ≥ n, ∀ v' m' j, qualifyTemplateDataM h fuel v m i = (.ok v', m', j) →
      (TVal.iface acceptsAll t).requalify h j.qualifierOf = .iface acceptsAll t → v' = v := by
  refine ⟨t.need + 1, fun fuel hf v' m' j hq hr => ?_⟩
  have sim := sim_qualifyTemplateDataM h hf hk ht i hg.at hd
  unfold Sim at sim
  rcases hy : qualifyData h true (.iface acceptsAll t) i with ⟨⟨a, c⟩ | _ | _, i'⟩
  · rw [hy] at sim
    obtain ⟨b, h', m'', e, -, -, p⟩ := sim
    rw [hq] at e
    cases e
    exact p ((C42_same_value hv hy).1.2 hr)
  · rw [hy] at sim
    obtain ⟨m'', e⟩ := sim
    rw [hq] at e
    cases e
  · rw [hy] at sim
    obtain ⟨m'', e⟩ := sim
    rw [hq] at e
    cases e

theorem hasPart_of_at : ∀ (path : List Nat) (v w : DVal), v.at path = some w → v.HasPart path w
  | [], v, w, h => by
    have : v = w := by cases v <;> exact Option.some.inj h
    exact this ▸ .whole v
  | k :: ks, v, w, h => by
    cases v with
    | struct fs =>
      rw [DVal.at] at h
      split at h
      · exact .field (by assumption) (hasPart_of_at ks _ _ h)
      · cases h
    | array vs =>
      rw [DVal.at] at h
      split at h
      · exact .elem (by assumption) (hasPart_of_at ks _ _ h)
      · cases h
    | _ => cases h

theorem at_of_hasPart {v w : DVal} {path : List Nat} (h : v.HasPart path w) : v.at path = some w := by
  induction h with
  | whole v => cases v <;> rfl
  | field h1 _ ih => rw [DVal.at, h1]; exact ih
  | elem h1 _ ih => rw [DVal.at, h1]; exact ih

/-- C52: pointers lead to the variable, field or element they point to (in the model and where it is said that data
in memory is a tree). -/
theorem C52_pointers (m : Mem) (a : Nat) (path : List Nat) (w : DVal) :
    (Part.dataAt m.cells a path = some w ↔ m.HasData a path w) ∧
    ∀ i : Imports, loadData a path m i = (.ok w, m, i) ↔ m.HasData a path w := by
  have key : Part.dataAt m.cells a path = some w ↔ m.HasData a path w := by
    unfold Part.dataAt Mem.HasData
    rcases hc : m.cells a with _ | c
    · simp
    · cases c with
      | data v =>
        simp only [Option.some.injEq, Cell.data.injEq, exists_eq_left', reduceCtorEq, false_and, exists_false, or_false]
        exact ⟨hasPart_of_at _ _ _, at_of_hasPart⟩
      | sig s =>
        simp only [Option.some.injEq, Cell.sig.injEq, reduceCtorEq, false_and, exists_false, false_or]
        cases path with
        | nil => simp [Cell.at, eq_comm]
        | cons k ks => simp [Cell.at]
      | array l =>
        simp only [Option.some.injEq, Cell.array.injEq, reduceCtorEq, false_and, exists_false, false_or, or_false]
        cases path with
        | nil => simp [Cell.at]
        | cons k ks =>
          simp only [Cell.at]
          constructor
          · intro h
            split at h
            · rename_i v hv
              exact ⟨l, k, ks, v, rfl, rfl, hv, hasPart_of_at _ _ _ h⟩
            · cases h
          · rintro ⟨_, _, _, v, rfl, h, hv, hp⟩
            cases h
            rw [hv]
            exact at_of_hasPart hp
      | _ => cases path <;> simp [Cell.at]
  refine ⟨key, fun i => ?_⟩
  rw [← key]
  unfold Part.dataAt loadData
  rw [MM.bind_apply]
  unfold MM.load
  rcases hc : m.cells a with _ | c
  · simp
  · dsimp only
    rcases c.at path with _ | v
    · simp [MM.panic]
    · simp [pure, MM.pure]

/-- The second pointer of the slice below points to the first field of the struct. -/
example : (⟨fun a => if a = 0 then some (.data (.struct [(true, .scalar 1), (true, .array [.scalar 2, .scalar 3])]))
    else none, 1, []⟩ : Mem).HasData 0 [1, 0] (.scalar 2) :=
  .inl ⟨_, rfl, .field (e := true) rfl (.elem rfl (.whole _))⟩

/-! ## C53: termination -/

/-- C53 in full: QualifyTemplateData returns or panics for every data. -/
def C53_full : Prop := ∀ (h : Heap) (m : Mem) (v : DVal) (i : Imports),
  ∃ n, ∀ fuel ≥ n, (qualifyTemplateDataM h fuel v m i).1 ≠ .hang

/-- C53: QualifyTemplateData returns or panics if the data (in a variable of type `interface{}`) does not lead to a
cycle, be it one of pointers, slices and maps or one of types and signatures; whatever else is in memory, whatever
is shared, and whether or not all of the data makes sense. -/
theorem C53_terminates_partial (h : Heap) {m : Mem} (hg : m.Good) {v : DVal}
    (hs : m.Sound (.data (.iface acceptsAll v))) (hc : ¬ m.Cyclic (.data (.iface acceptsAll v))) (i : Imports) :
    ∃ n, ∀ fuel ≥ n, (qualifyTemplateDataM h fuel v m i).1 ≠ .hang := by
  obtain ⟨n, hn⟩ := stops_of_ends h hg (acc_of_not_cyclic hg hc) hs
  refine ⟨n, fun fuel hf => ?_⟩
  rw [qualifyTemplateDataM_eq]
  exact ((hn fuel hf true).bind (R := fun _ => True) fun _ _ => .pure trivial) _ i (.after m _) |>.1

/-- C53: QualifyTemplateData never returns a value for data that leads to a cycle, however long it runs. -/
theorem C53_never_returns_for_cycles (h : Heap) {m : Mem} (hg : m.Good) {v : DVal}
    (hc : m.Cyclic (.data (.iface acceptsAll v))) (fuel : Nat) (i : Imports) (v' : DVal) :
    (qualifyTemplateDataM h fuel v m i).1 ≠ .ok v' := by
  intro he
  rcases hq : qualifyTemplateDataM h fuel v m i with ⟨r, m', j⟩
  rw [hq] at he
  cases he
  exact (ends_of_qualified hg hq).not_cyclic hc

/-- C53: so it ends, if it does not panic, exactly for data that does not lead to a cycle. -/
theorem C53_returns_iff (h : Heap) {m : Mem} (hg : m.Good) {v : DVal} (hs : m.Sound (.data (.iface acceptsAll v)))
    (i : Imports) (hp : ∀ fuel, (qualifyTemplateDataM h fuel v m i).1 ≠ .panic) :
    (∃ fuel v', (qualifyTemplateDataM h fuel v m i).1 = .ok v') ↔ ¬ m.Cyclic (.data (.iface acceptsAll v)) := by
  refine ⟨fun ⟨fuel, v', hr⟩ hc => C53_never_returns_for_cycles h hg hc fuel i v' hr, fun hc => ?_⟩
  obtain ⟨n, hn⟩ := C53_terminates_partial h hg hs hc i
  have h1 := hn n (Nat.le_refl n)
  have h2 := hp n
  rcases he : (qualifyTemplateDataM h n v m i).1 with v' | _ | _
  · exact ⟨n, v', he⟩
  · exact absurd he h2
  · exact absurd he h1

/-- C53: data that is a tree does not lead to a cycle (nor to a free address). -/
theorem C53_trees_have_no_cycles {m : Mem} (hg : m.Good) {t : TVal} {v : DVal} (hd : m.IsData t v)
    (ht : t.isIface = false) :
    m.Sound (.data (.iface acceptsAll v)) ∧ ¬ m.Cyclic (.data (.iface acceptsAll v)) := by
  have := fine_data hg (.iface acceptsAll t) (.iface acceptsAll v) (by
    simp only [Part.Data]
    exact ⟨trivial, ht, hd⟩)
  exact ⟨this.2, this.1.not_cyclic⟩

/-- Memory with a struct whose field is a pointer to the struct itself, as in a ring of one node. -/
def exRing : Mem where
  cells := fun a => if a = 0 then some (.data (.struct [(true, .ptr 0 [])])) else none
  next := 1
  stores := []

theorem exRing_cyclic : exRing.Cyclic (.data (.iface acceptsAll (.ptr 0 []))) :=
  ⟨_, .single .iface, .tail (.single (.ptr (v := .struct [(true, .ptr 0 [])]) rfl)) (.field (e := true) (by simp))⟩

theorem MM.bind_hang {α β : Type} {x : MM α} {f : α → MM β} {m m' : Mem} {i i' : Imports}
    (h : x m i = (.hang, m', i')) : (x >>= f) m i = (.hang, m', i') := by
  rw [MM.bind_apply, h]

theorem MM.bind_ok {α β : Type} {x : MM α} {f : α → MM β} {m m' : Mem} {i i' : Imports} {a : α}
    (h : x m i = (.ok a, m', i')) : (x >>= f) m i = f a m' i' := by
  rw [MM.bind_apply, h]

theorem ring_hangs (h : Heap) : ∀ (fuel : Nat) (addr : Bool) (m : Mem) (i : Imports),
    m.cells 0 = some (.data (.struct [(true, .ptr 0 [])])) →
    qualifyD h fuel addr (.ptr 0 []) m i = (.hang, m, i) ∧
    qualifyD h fuel addr (.struct [(true, .ptr 0 [])]) m i = (.hang, m, i)
  | 0, _, _, _, _ => ⟨rfl, rfl⟩
  | fuel + 1, addr, m, i, hm => by
    have ih := fun addr => ring_hangs h fuel addr m i hm
    constructor
    · rw [qualifyD]
      have hl : loadData 0 [] m i = (.ok (.struct [(true, .ptr 0 [])]), m, i) := by
        unfold loadData
        rw [MM.bind_ok (a := .data (.struct [(true, .ptr 0 [])])) (m' := m) (i' := i) (by simp [MM.load, hm])]
        rfl
      rw [MM.bind_ok hl, MM.bind_hang (ih true).2]
    · rw [qualifyD]
      refine MM.bind_hang ?_
      show partsLoop _ _ _ _ _ 1 0 none m i = _
      rw [partsLoop, if_neg (by simp [Shape.hides]), MM.bind_ok (a := .ptr 0 []) (m' := m) (i' := i) rfl,
        MM.bind_hang (ih addr).1]

/-- C53 fails: it does not return for cyclic data (in Go, the stack overflows). -/
theorem C53_full_fails_for_cycles : ¬ C53_full := by
  intro hall
  obtain ⟨n, hn⟩ := hall {} exRing (.ptr 0 []) (newImportsFor (b! "x/p"))
  refine hn (n + 1) (by omega) ?_
  have key := (ring_hangs {} n false (exRing.after (.array [.data (.iface acceptsAll (.ptr 0 []))]))
    (newImportsFor (b! "x/p")) rfl).1
  rw [qualifyTemplateDataM, MM.bind_ok (alloc_apply _ _ _), MM.bind_ok (a := .iface acceptsAll (.ptr 0 []))
    (m' := exRing.after (.array [.data (.iface acceptsAll (.ptr 0 []))])) (i' := newImportsFor (b! "x/p")) rfl,
    MM.bind_hang]
  rw [qualifyD, MM.bind_hang key] <;> (intros; simp_all)

/-! ## Examples -/

/-- Memory with a struct with a symbol, which two elements of a slice point to. -/
def exAliased : Mem where
  cells := fun a =>
    if a = 0 then some (.data (.struct [(true, .symbol ⟨⟨b! "y/a", b! "a"⟩, b! "U"⟩), (true, .scalar 3)]))
    else if a = 1 then some (.array [.data (.ptr 0 []), .data (.ptr 0 [0]), .data (.ptr 0 [])])
    else none
  next := 2
  stores := []

/-- The tree that the slice is. -/
def exAliasedTree : TVal := .slice [
  .ptr (.struct [(true, .symbol ⟨⟨b! "y/a", b! "a"⟩, b! "U"⟩), (true, .scalar 3)]),
  .ptr (.symbol ⟨⟨b! "y/a", b! "a"⟩, b! "U"⟩),
  .ptr (.struct [(true, .symbol ⟨⟨b! "y/a", b! "a"⟩, b! "U"⟩), (true, .scalar 3)])]

theorem exAliased_good : exAliased.Good := by
  intro p hp
  have : 2 ≤ p := hp
  have h0 : p ≠ 0 := by omega
  have h1 : p ≠ 1 := by omega
  simp [exAliased, h0, h1]

theorem exAliased_data : exAliased.IsData exAliasedTree (.slice ⟨1, 0, 3⟩) := by
  unfold Mem.IsData exAliasedTree
  simp only [Part.Data]
  refine ⟨[.ptr 0 [], .ptr 0 [0], .ptr 0 []], rfl, ?_⟩
  simp only [Part.DataElems, Part.Data, and_true]
  refine ⟨⟨_, rfl, ?_⟩, ⟨_, rfl, ?_⟩, ⟨_, rfl, ?_⟩⟩ <;> simp [Part.Data, Part.DataFields]

/-- The package y/a is imported as a1 here, because there is another package a. -/
def exTaken : Imports := (registerPackage ⟨b! "x/a", b! "a"⟩ (newImportsFor (b! "x/p"))).2

/-- Where a slice and what its pointers point to are. -/
def exWhere (r : Outcome DVal × Mem × Imports) : Option (Slice × List (Nat × List Nat)) :=
  match r.1 with
  | .ok (.slice s) =>
    match r.2.1.cells s.arr with
    | some (.array l) => some (s, l.filterMap fun
      | .data (.ptr a path) => some (a, path)
      | _ => none)
    | _ => none
  | _ => none

/-- The name of the symbol in the first field of a struct. -/
def exFirst (c : Option Cell) : Option Symbol :=
  match c with
  | some (.data (.struct ((_, .symbol s) :: _))) => some s
  | some (.data (.symbol s)) => some s
  | _ => none

/-- With the name taken: a new slice of pointers to three separate new values, which name the package a1. The
first and the third element no longer point to the same struct, nor the second one into it. The struct that was
given still names the package a. -/
example : let r := qualifyTemplateDataM {} 9 (.slice ⟨1, 0, 3⟩) exAliased exTaken
    exWhere r = some (⟨5, 0, 3⟩, [(4, []), (6, []), (8, [])]) ∧
    exFirst (r.2.1.cells 4) = some ⟨⟨b! "y/a", b! "a1"⟩, b! "U"⟩ ∧
    exFirst (r.2.1.cells 6) = some ⟨⟨b! "y/a", b! "a1"⟩, b! "U"⟩ ∧
    exFirst (r.2.1.cells 8) = some ⟨⟨b! "y/a", b! "a1"⟩, b! "U"⟩ ∧
    exFirst (r.2.1.cells 0) = some ⟨⟨b! "y/a", b! "a"⟩, b! "U"⟩ := by decide +kernel

/-- With the name free: the slice itself. -/
example : exWhere (qualifyTemplateDataM {} 9 (.slice ⟨1, 0, 3⟩) exAliased (newImportsFor (b! "x/p"))) =
    some (⟨1, 0, 3⟩, [(0, []), (0, [0]), (0, [])]) := by decide +kernel

/-- C52 applies. -/
example : ∃ n, ∀ fuel ≥ n, Agrees (qualifyTemplateDataM {} fuel (.slice ⟨1, 0, 3⟩))
    (qualifyTemplateData {} exAliasedTree) exAliased exTaken fun m' t' v' => m'.IsData t' v' :=
  C52_sharing_irrelevant {} exAliased_good exAliased_data (by decide +kernel) (by decide +kernel) exTaken

/-- Memory with a map whose keys are two pointers into the same struct, a pointer to that struct and a type, each in
an interface. -/
def exPointerKeys : Mem where
  cells := fun a =>
    if a = 0 then some (.data (.struct [(true, .symbol ⟨⟨b! "y/a", b! "a"⟩, b! "U"⟩),
      (true, .symbol ⟨⟨b! "y/a", b! "a"⟩, b! "U"⟩)]))
    else if a = 1 then some (.map [(.iface acceptsAll (.ptr 0 [0]), .scalar 1), (.iface acceptsAll (.ptr 0 [1]), .scalar 2),
      (.iface acceptsAll (.ptr 0 []), .scalar 3), (.iface acceptsAll (.typeName (.named 2)), .scalar 4)])
    else if a = 2 then some (.named ⟨⟨b! "y/a", b! "a"⟩, b! "U"⟩)
    else none
  next := 3
  stores := []

/-- The tree that the map is. The first two keys look alike here. -/
def exPointerKeysTree : TVal := .map [
  (.iface acceptsAll (.ptr (.symbol ⟨⟨b! "y/a", b! "a"⟩, b! "U"⟩)), .scalar 1),
  (.iface acceptsAll (.ptr (.symbol ⟨⟨b! "y/a", b! "a"⟩, b! "U"⟩)), .scalar 2),
  (.iface acceptsAll (.ptr (.struct [(true, .symbol ⟨⟨b! "y/a", b! "a"⟩, b! "U"⟩),
    (true, .symbol ⟨⟨b! "y/a", b! "a"⟩, b! "U"⟩)])), .scalar 3),
  (.iface acceptsAll (.typeName (.named ⟨⟨b! "y/a", b! "a"⟩, b! "U"⟩)), .scalar 4)]

theorem exPointerKeys_good : exPointerKeys.Good := by
  intro p hp
  have : 3 ≤ p := hp
  have h0 : p ≠ 0 := by omega
  have h1 : p ≠ 1 := by omega
  have h2 : p ≠ 2 := by omega
  simp [exPointerKeys, h0, h1, h2]

theorem exPointerKeys_data : exPointerKeys.IsData exPointerKeysTree (.map 1) := by
  unfold Mem.IsData exPointerKeysTree
  simp only [Part.Data]
  refine ⟨_, rfl, ?_, (unequal_iff _).1 (by unfold Unequal; decide +kernel)⟩
  simp only [Part.DataEntries, Part.Data, TVal.isIface, and_true, true_and]
  refine ⟨⟨_, rfl, ?_⟩, ⟨_, rfl, ?_⟩, ⟨_, rfl, ?_⟩, ?_⟩ <;> simp [Part.Data, Part.DataFields, Part.Type, exPointerKeys]

/-- The keys of a map (the address of what is pointed to, or of the type) and the numbers that are the values. -/
def exEntries (r : Outcome DVal × Mem × Imports) : Option (List (Nat × List Nat × Nat)) :=
  match r.1 with
  | .ok (.map a) =>
    match r.2.1.cells a with
    | some (.map l) => some (l.filterMap fun
      | (.iface _ (.ptr a path), .scalar n) => some (a, path, n)
      | (.iface _ (.typeName (.named a)), .scalar n) => some (a, [], n)
      | _ => none)
    | _ => none
  | _ => none

/-- With the name taken: a new map with four entries, whose keys are four new pointers. -/
example : exEntries (qualifyTemplateDataM {} 9 (.map 1) exPointerKeys exTaken) =
    some [(4, [], 1), (6, [], 2), (8, [], 3), (10, [], 4)] := by decide +kernel

/-- With the name free: the map itself. -/
example : exEntries (qualifyTemplateDataM {} 9 (.map 1) exPointerKeys (newImportsFor (b! "x/p"))) =
    some [(0, [0], 1), (0, [1], 2), (0, [], 3), (2, [], 4)] := by decide +kernel

/-- C52 applies. -/
example : ∃ n, ∀ fuel ≥ n, Agrees (qualifyTemplateDataM {} fuel (.map 1))
    (qualifyTemplateData {} exPointerKeysTree) exPointerKeys exTaken fun m' t' v' => m'.IsData t' v' :=
  C52_sharing_irrelevant {} exPointerKeys_good exPointerKeys_data (by decide +kernel) (by decide +kernel) exTaken

/-- It does not hang, and the slice has no cycles. -/
example : ∃ n, ∀ fuel ≥ n, (qualifyTemplateDataM {} fuel (.slice ⟨1, 0, 3⟩) exAliased exTaken).1 ≠ .hang :=
  have h := C53_trees_have_no_cycles exAliased_good exAliased_data (by decide +kernel)
  C53_terminates_partial {} exAliased_good h.1 h.2 exTaken

/-- The ring is given back by no run. -/
example (h : Heap) (fuel : Nat) (i : Imports) (v' : DVal) :
    (qualifyTemplateDataM h fuel (.ptr 0 []) exRing i).1 ≠ .ok v' := by
  refine C53_never_returns_for_cycles h ?_ exRing_cyclic fuel i v'
  intro p hp
  have : p ≠ 0 := by have : 1 ≤ p := hp; omega
  simp [exRing, this]

end Gopoet
