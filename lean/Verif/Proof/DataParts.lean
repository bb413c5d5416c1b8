import Verif.Spec.DataMemory
import Verif.Proof.MemorySim
/-!
# Qualification of template data in memory: reading, new types, structs, arrays and slices
-/

namespace Gopoet
open MM Imports

/-! ## Data -/

theorem Cell.Le.at {c c' : Cell} (le : c.Le c') {path : List Nat} {v : DVal} (hv : c.at path = some v) :
    c'.at path = some v := by
  rcases le with rfl | ⟨l, r, rfl, rfl⟩
  · exact hv
  · cases path with
    | nil => simp [Cell.at] at hv
    | cons k ks =>
      simp only [Cell.at] at hv ⊢
      cases hk : l[k]? with
      | none => simp [hk] at hv
      | some e =>
        rw [List.getElem?_append_left (List.getElem?_eq_some_iff.1 hk).1, hk]
        rw [hk] at hv
        exact hv

theorem Part.dataAt_mono {h h' : Part} (le : h.Le h') {a : Nat} {path : List Nat} {v : DVal}
    (hv : h.dataAt a path = some v) : h'.dataAt a path = some v := by
  unfold Part.dataAt at hv ⊢
  cases hc : h a with
  | none => simp [hc] at hv
  | some c =>
    rw [hc] at hv
    obtain ⟨c', hc', le'⟩ := le _ _ hc
    rw [hc']
    exact le'.at hv

mutual
theorem Part.Data.mono {h h' : Part} (le : h.Le h') : ∀ t v, h.Data t v → h'.Data t v
  | .iface acc t, v, hh => by
    cases v <;> simp only [Part.Data] at hh ⊢
    exact ⟨hh.1, hh.2.1, Part.Data.mono le _ _ hh.2.2⟩
  | .ptr t, v, hh => by
    cases v <;> simp only [Part.Data] at hh ⊢
    obtain ⟨v, h1, h2⟩ := hh
    exact ⟨v, Part.dataAt_mono le h1, Part.Data.mono le _ _ h2⟩
  | .struct fs, v, hh => by
    cases v <;> simp only [Part.Data] at hh ⊢
    exact Part.DataFields.mono le _ _ hh
  | .array vs, v, hh => by
    cases v <;> simp only [Part.Data] at hh ⊢
    exact Part.DataElems.mono le _ _ hh
  | .slice vs, v, hh => by
    cases v <;> simp only [Part.Data] at hh ⊢
    obtain ⟨l, h1, h2⟩ := hh
    exact ⟨l, Part.elems_mono le h1, Part.DataElems.mono le _ _ h2⟩
  | .map es, v, hh => by
    cases v <;> simp only [Part.Data] at hh ⊢
    obtain ⟨l, h1, h2⟩ := hh
    exact ⟨l, le.get h1, Part.DataEntries.mono le _ _ h2.1, h2.2⟩
  | .signature s, v, hh => by
    cases v <;> simp only [Part.Data] at hh ⊢
    exact hh.mono le _ _
  | .method s, v, hh => by
    cases v <;> simp only [Part.Data] at hh ⊢
    exact ⟨hh.1, hh.2.1, hh.2.2.1, hh.2.2.2.mono le _ _⟩
  | .typeName t, v, hh => by
    cases v <;> simp only [Part.Data] at hh ⊢
    exact Part.Type.mono le _ _ hh
  | .scalar _, v, hh | .package _, v, hh | .symbol _, v, hh | .mref _, v, hh | .spec _, v, hh
  | .specCopy _ _, v, hh | .embed _, v, hh | .imports, v, hh | .reflectType _, v, hh | .goType _, v, hh
  | .goObject _, v, hh | .goPackage _, v, hh => by
    cases v <;> simp only [Part.Data] at hh ⊢ <;> exact hh
theorem Part.DataFields.mono {h h' : Part} (le : h.Le h') : ∀ t v, h.DataFields t v → h'.DataFields t v
  | [], [], _ => by simp [Part.DataFields]
  | [], _ :: _, hh => by simp [Part.DataFields] at hh
  | (_, _) :: _, [], hh => by simp [Part.DataFields] at hh
  | (e, t) :: l, (e', v) :: l', hh => by
    rw [Part.DataFields] at hh ⊢
    exact ⟨hh.1, Part.Data.mono le _ _ hh.2.1, Part.DataFields.mono le _ _ hh.2.2⟩
theorem Part.DataElems.mono {h h' : Part} (le : h.Le h') : ∀ t v, h.DataElems t v → h'.DataElems t v
  | [], [], _ => by simp [Part.DataElems]
  | [], _ :: _, hh => by simp [Part.DataElems] at hh
  | _ :: _, [], hh => by simp [Part.DataElems] at hh
  | t :: l, v :: l', hh => by
    rw [Part.DataElems] at hh ⊢
    exact ⟨Part.Data.mono le _ _ hh.1, Part.DataElems.mono le _ _ hh.2⟩
theorem Part.DataEntries.mono {h h' : Part} (le : h.Le h') : ∀ t v, h.DataEntries t v → h'.DataEntries t v
  | [], [], _ => by simp [Part.DataEntries]
  | [], _ :: _, hh => by simp [Part.DataEntries] at hh
  | (_, _) :: _, [], hh => by simp [Part.DataEntries] at hh
  | (k, t) :: l, (k', v) :: l', hh => by
    rw [Part.DataEntries] at hh ⊢
    exact ⟨Part.Data.mono le _ _ hh.1, Part.Data.mono le _ _ hh.2.1, Part.DataEntries.mono le _ _ hh.2.2⟩
end

theorem dataFields_iff {h : Part} : ∀ {fs : List (Bool × TVal)} {fs' : List (Bool × DVal)},
    h.DataFields fs fs' ↔ fs'.map (·.1) = fs.map (·.1) ∧ h.DataElems (fs.map (·.2)) (fs'.map (·.2))
  | [], [] => by simp [Part.DataFields, Part.DataElems]
  | [], _ :: _ => by simp [Part.DataFields]
  | (_, _) :: _, [] => by simp [Part.DataFields]
  | (e, t) :: l, (e', v) :: l' => by
    simp only [Part.DataFields, List.map_cons, List.cons.injEq, Part.DataElems, dataFields_iff (fs := l) (fs' := l')]
    constructor
    · rintro ⟨h1, h2, h3, h4⟩
      exact ⟨⟨h1, h3⟩, h2, h4⟩
    · rintro ⟨⟨h1, h3⟩, h2, h4⟩
      exact ⟨h1, h2, h3, h4⟩

theorem dataElems_length {h : Part} : ∀ {l : List TVal} {l' : List DVal}, h.DataElems l l' → l'.length = l.length
  | [], [], _ => rfl
  | [], _ :: _, hh => by simp [Part.DataElems] at hh
  | _ :: _, [], hh => by simp [Part.DataElems] at hh
  | _ :: l, _ :: l', hh => by
    rw [Part.DataElems] at hh
    simp [dataElems_length hh.2]

theorem loadData_of_at {h : Part} {m : Mem} (a : At h m) {p : Nat} {path : List Nat} {v : DVal}
    (hv : h.dataAt p path = some v) (i : Imports) : loadData p path m i = (.ok v, m, i) := by
  unfold Part.dataAt at hv
  cases hc : h p with
  | none => simp [hc] at hv
  | some c =>
    rw [hc] at hv
    obtain ⟨c', hc', le'⟩ := a.le _ _ hc
    simp only [loadData, MM.bind_apply, load, hc', le'.at hv]
    rfl

/-! ## New types -/

/-- `x` puts something into new memory. -/
def Builds {α : Type} (x : MM α) (P : Part → α → Prop) : Prop :=
  ∀ h m i, At h m → ∃ v h' m', x m i = (.ok v, m', i) ∧ MStep noAddr h m h' m' ∧ P h' v

theorem Builds.pure {α : Type} {v : α} {P : Part → α → Prop} (hP : ∀ h, P h v) : Builds (pure v) P :=
  fun h m _ a => ⟨v, h, m, rfl, .refl a, hP h⟩

theorem Builds.bind {α β : Type} {x : MM α} {f : α → MM β} {P : Part → α → Prop} {Q : Part → β → Prop}
    (hx : Builds x P) (mono : ∀ {h h' v}, h.Le h' → P h v → P h' v)
    (hf : ∀ v, Builds (f v) fun h w => P h v → Q h w) : Builds (x >>= f) Q := by
  intro h m i a
  obtain ⟨v, h', m', e, s, p⟩ := hx h m i a
  obtain ⟨w, h'', m'', e', s', q⟩ := hf v h' m' i s.after
  exact ⟨w, h'', m'', by rw [MM.bind_apply, e]; exact e', s.trans s', q (mono s'.le p)⟩

theorem Builds.mono {α : Type} {x : MM α} {P Q : Part → α → Prop} (hx : Builds x P) (h : ∀ h v, P h v → Q h v) :
    Builds x Q := by
  intro p m i a
  obtain ⟨v, h', m', e, s, q⟩ := hx p m i a
  exact ⟨v, h', m', e, s, h _ _ q⟩

theorem builds_alloc (c : Cell) : Builds (alloc c) fun h p => h p = some c :=
  fun h m _ a => ⟨m.next, h.add m.next c, m.after c, rfl, a.alloc c, by simp [Part.add]⟩

theorem part_mono {h h' : Part} {p : Nat} {c : Cell} (hc : ∀ l, c ≠ .array l) (le : h.Le h') (hp : h p = some c) :
    h' p = some c := le.get hp hc

theorem elems_of_cell {h : Part} {p : Nat} {l : List Elem} (hp : h p = some (.array l)) :
    h.elems ⟨p, 0, l.length⟩ = some l := by
  unfold Part.elems
  by_cases h0 : l.length = 0
  · simp only [if_pos h0]
    rw [List.length_eq_zero_iff.1 h0]
  · simp [h0, hp]

theorem builds_array (l : List Elem) : Builds (alloc (.array l)) fun h p => h.elems ⟨p, 0, l.length⟩ = some l :=
  (builds_alloc _).mono fun _ _ => elems_of_cell

theorem syms_map : ∀ l : List Symbol, Part.Syms l (l.map .sym)
  | [] => by simp [Part.Syms]
  | s :: l => by simp [Part.Syms, syms_map l]

mutual
theorem builds_type : ∀ t, Builds (buildType t) fun h v => h.Type t v
  | .nil => by rw [buildType]; exact .pure fun h => by simp [Part.Type]
  | .basic k => by rw [buildType]; exact .pure fun h => by simp [Part.Type]
  | .named s => by
    rw [buildType]
    exact (builds_alloc _).bind (part_mono nofun) fun p => .pure fun h hp => by simpa [Part.Type] using hp
  | .ptr t => by
    rw [buildType]
    exact (builds_type t).bind (fun le => Part.Type.mono le _ _) fun p => .pure fun h hp => by
      simpa [Part.Type] using hp
  | .slice t => by
    rw [buildType]
    exact (builds_type t).bind (fun le => Part.Type.mono le _ _) fun p => .pure fun h hp => by
      simpa [Part.Type] using hp
  | .array t n => by
    rw [buildType]
    exact (builds_type t).bind (fun le => Part.Type.mono le _ _) fun p => .pure fun h hp => by
      simpa [Part.Type] using hp
  | .map t k => by
    rw [buildType]
    exact (builds_type t).bind (fun le => Part.Type.mono le _ _) fun p =>
      (builds_type k).bind (fun le => Part.Type.mono le _ _) fun p => .pure fun h hk ht => by
        simpa [Part.Type] using ⟨ht, hk⟩
  | .chan t d => by
    rw [buildType]
    exact (builds_type t).bind (fun le => Part.Type.mono le _ _) fun p => .pure fun h hp => by
      simpa [Part.Type] using hp
  | .func s => by
    rw [buildType]
    exact (builds_sig s).bind (fun le hs => hs.mono le _ _) fun p =>
      (builds_alloc _).bind (part_mono nofun) fun p => .pure fun h hp hs => by
        rw [Part.Type]
        exact ⟨_, hp, hs⟩
  | .struct fields => by
    rw [buildType]
    exact (builds_fields fields).bind (fun le hs => hs.mono le _ _) fun l =>
      (builds_array _).bind (fun le he => Part.elems_mono le he) fun a =>
        (builds_alloc _).bind (part_mono nofun) fun p => .pure fun h hp ha hl => by
        rw [Part.Type]
        exact ⟨_, l, hp, ha, hl⟩
  | .interface methods embeds => by
    rw [buildType]
    exact (builds_methods methods).bind (fun le hs => hs.mono le _ _) fun l =>
      (builds_array _).bind (fun le he => Part.elems_mono le he) fun a => (builds_array _).bind (fun le he => Part.elems_mono le he) fun b =>
        (builds_alloc _).bind (part_mono nofun) fun p => .pure fun h hp hb ha hl => by
        rw [Part.Type]
        refine ⟨_, _, l, embeds.map .sym, hp, ha, hl, ?_, syms_map embeds⟩
        rwa [List.length_map] at hb
theorem builds_sig : ∀ t, Builds (buildSig t) fun h v => h.Sig t v
  | ⟨args, results, v⟩ => by
    rw [buildSig]
    exact (builds_args args).bind (fun le hs => hs.mono le _ _) fun l =>
      (builds_array _).bind (fun le he => Part.elems_mono le he) fun a => (builds_args results).bind (fun le hs => hs.mono le _ _) fun l' =>
        (builds_array _).bind (fun le he => Part.elems_mono le he) fun b => .pure fun h hb hl' ha hl => by
        rw [Part.Sig]
        exact ⟨rfl, l, l', ha, hl, hb, hl'⟩
theorem builds_args : ∀ t, Builds (buildArgs t) fun h v => h.Args t v
  | [] => by rw [buildArgs]; exact .pure fun h => by simp [Part.Args]
  | ⟨n, t⟩ :: l => by
    rw [buildArgs]
    exact (builds_type t).bind (fun le => Part.Type.mono le _ _) fun v =>
      (builds_args l).bind (fun le hs => hs.mono le _ _) fun l' => .pure fun h hl ht => by
        rw [Part.Args]
        exact ⟨rfl, ht, hl⟩
theorem builds_fields : ∀ t, Builds (buildFields t) fun h v => h.Fields t v
  | [] => by rw [buildFields]; exact .pure fun h => by simp [Part.Fields]
  | ⟨n, t, tag⟩ :: l => by
    rw [buildFields]
    exact (builds_type t).bind (fun le => Part.Type.mono le _ _) fun v =>
      (builds_fields l).bind (fun le hs => hs.mono le _ _) fun l' => .pure fun h hl ht => by
        rw [Part.Fields]
        exact ⟨rfl, rfl, ht, hl⟩
theorem builds_methods : ∀ t, Builds (buildMethods t) fun h v => h.Methods t v
  | [] => by rw [buildMethods]; exact .pure fun h => by simp [Part.Methods]
  | ⟨n, s⟩ :: l => by
    rw [buildMethods]
    exact (builds_sig s).bind (fun le hs => hs.mono le _ _) fun v =>
      (builds_methods l).bind (fun le hs => hs.mono le _ _) fun l' => .pure fun h hl ht => by
        rw [Part.Methods]
        exact ⟨rfl, ht, hl⟩
end

end Gopoet
