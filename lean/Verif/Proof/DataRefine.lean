import Verif.Proof.DataSim
/-!
# Qualification of template data in memory computes what qualification of trees computes (the function)
-/

namespace Gopoet
open MM Imports

/-! ## Fuel -/

/-- The fuel for a converted type. -/
noncomputable def convNeed : Outcome TypeName → Nat
  | .ok t => sizeOf t + 2
  | _ => 1

mutual
/-- Enough fuel for the data. -/
noncomputable def TVal.need : TVal → Nat
  | .iface _ v => v.need + 1
  | .signature s => sizeOf s + 2
  | .method m => sizeOf m.signature + 2
  | .typeName t => sizeOf t + 2
  | .reflectType t => convNeed (typeNameForReflectType t)
  | .goType t => convNeed (typeNameForGoType t)
  | .ptr v => v.need + 1
  | .struct fs => needFields fs + 1
  | .array vs => needElems vs + 1
  | .slice vs => needElems vs + 1
  | .map es => needEntries es + 1
  | _ => 1
/-- see `TVal.need` -/
noncomputable def needFields : List (Bool × TVal) → Nat
  | [] => 0
  | (_, v) :: fs => v.need + needFields fs
/-- see `TVal.need` -/
noncomputable def needElems : List TVal → Nat
  | [] => 0
  | v :: vs => v.need + needElems vs
/-- see `TVal.need` -/
noncomputable def needEntries : List (TVal × TVal) → Nat
  | [] => 0
  | (k, v) :: es => k.need + v.need + needEntries es
end

theorem need_field : ∀ {fs : List (Bool × TVal)} {t : TVal}, t ∈ fs.map (·.2) → t.need ≤ needFields fs
  | [], t, h => by simp at h
  | (_, v) :: fs, t, h => by
    simp only [List.map_cons, List.mem_cons] at h
    rw [needFields]
    rcases h with rfl | h
    · omega
    · have := need_field h
      omega

theorem need_elem : ∀ {vs : List TVal} {t : TVal}, t ∈ vs → t.need ≤ needElems vs
  | [], t, h => by simp at h
  | v :: vs, t, h => by
    simp only [List.mem_cons] at h
    rw [needElems]
    rcases h with rfl | h
    · omega
    · have := need_elem h
      omega

theorem need_entry : ∀ {es : List (TVal × TVal)} {e : TVal × TVal}, e ∈ es →
    e.1.need ≤ needEntries es ∧ e.2.need ≤ needEntries es
  | [], t, h => by simp at h
  | (k, v) :: es, t, h => by
    simp only [List.mem_cons] at h
    rw [needEntries]
    rcases h with rfl | h
    · dsimp only
      omega
    · have := need_entry h
      omega

theorem simpleKeys_field : ∀ {fs : List (Bool × TVal)} {t : TVal}, simpleKeysFields fs = true → t ∈ fs.map (·.2) →
    t.simpleKeys = true
  | [], t, _, h => by simp at h
  | (_, v) :: fs, t, hv, h => by
    simp only [simpleKeysFields, Bool.and_eq_true] at hv
    simp only [List.map_cons, List.mem_cons] at h
    rcases h with rfl | h
    · exact hv.1
    · exact simpleKeys_field hv.2 h

theorem simpleKeys_elem : ∀ {vs : List TVal} {t : TVal}, simpleKeysElems vs = true → t ∈ vs → t.simpleKeys = true
  | [], t, _, h => by simp at h
  | v :: vs, t, hv, h => by
    simp only [simpleKeysElems, Bool.and_eq_true] at hv
    simp only [List.mem_cons] at h
    rcases h with rfl | h
    · exact hv.1
    · exact simpleKeys_elem hv.2 h

theorem simpleKeys_entry : ∀ {es : List (TVal × TVal)} {e : TVal × TVal}, simpleKeysEntries es = true → e ∈ es →
    e.1.Simple ∧ e.1.simpleKeys = true ∧ e.2.simpleKeys = true
  | [], t, _, h => by simp at h
  | (k, v) :: es, t, hv, h => by
    simp only [simpleKeysEntries, Bool.and_eq_true, Bool.or_eq_true] at hv
    simp only [List.mem_cons] at h
    rcases h with rfl | h
    · exact ⟨hv.1.1.1, hv.1.1.2, hv.1.2⟩
    · exact simpleKeys_entry hv.2 h

/-! ## Interfaces -/

theorem Part.Data.isIface {h : Part} {t : TVal} {v : DVal} (hd : h.Data t v) : v.isIface = t.isIface := by
  cases t <;> cases v <;> simp only [Part.Data] at hd <;> rfl

theorem Part.Data.inIface {h : Part} {t : TVal} {v : DVal} (hd : h.Data t v) : h.Data t.inIface v.inIface := by
  cases t <;> cases v <;> simp only [Part.Data] at hd <;> first
    | exact hd.2.2
    | (simp only [TVal.inIface, DVal.inIface, Part.Data] <;> exact hd)

theorem inIface_of_not {v : DVal} (h : v.isIface = false) : v.inIface = v := by
  cases v <;> first | rfl | simp [DVal.isIface] at h

/-! ## The function -/

section
variable {h : Part} {m : Mem} {i : Imports}

theorem post_unchanged {t : TVal} {v : DVal} (hd : h.Data t v) : DataPostM t v (t, false) (unchanged v) h :=
  ⟨hd, rfl, fun _ => rfl, rfl, rfl, fun b hb => by cases hb⟩

theorem sim_unchanged {W : Nat → Prop} {t : TVal} {v : DVal} (ha : At h m) (hd : h.Data t v) :
    Sim W (pure (unchanged v)) (pure (t, false)) i h m fun a r h' _ => DataPostM t v a r h' :=
  .pure ha (post_unchanged hd)

/-- New memory holds the result. -/
theorem sim_replacedAt {t t' : TVal} {v v' : DVal} (ha : At h m) (hi : t'.isIface = false) (ht : t.isIface = false)
    (hp : t.ifacePtr = false) (hd : ∀ h : Part, h.Data t' v') :
    Sim noAddr (replacedAt v') (pure (t', true)) i h m fun a r h' _ => DataPostM t v a r h' := by
  refine .left (alloc_apply _ _ _) (ha.alloc _) (.pure (ha.alloc (W := noAddr) _).after ?_)
  refine ⟨hd _, rfl, fun h => (by cases h), by simp [hp], by rw [hi, ht], ?_⟩
  intro b hb
  cases hb
  rw [inIface_of_not ((hd h).isIface.trans hi)]
  simp [Part.dataAt, Part.add, Cell.at, DVal.at]

theorem sim_qualifyConvertedM {fuel : Nat} {acc : Accepts} {t0 : TVal} {v0 : DVal} {t : TypeName} {v : MType}
    (ha : At h m) (hd : h.Data (.iface acc t0) v0) (ht : h.Type t v) (hf : sizeOf t < fuel) :
    Sim noAddr (qualifyConvertedM fuel acc v0 v) (qualifyConverted acc (.iface acc t0) (.ok t)) i h m
      fun a r h' _ => DataPostM (.iface acc t0) v0 a r h' := by
  unfold qualifyConvertedM qualifyConverted
  rw [lift_ok_bind]
  refine (sim_qualifyTypeM true fuel t hf v h m i ha ht).bind ?_
  rintro ⟨t', c⟩ v' h' m' i' st ⟨h1, h2⟩
  dsimp only at h1 h2 ⊢
  by_cases hv : v' = v
  · have hc := h2.1 hv
    subst hc
    rw [if_neg (by simp [hv])]
    simp only [Bool.false_and, Bool.false_eq_true, if_false]
    exact sim_unchanged st.after (hd.mono st.le)
  · have hc : c = true := by simpa [hv] using h2
    subst hc
    by_cases hacc : acc.typeName = true
    · rw [if_pos ⟨hv, hacc⟩]
      simp only [hacc, Bool.true_and, if_true]
      refine .pure st.after ⟨?_, rfl, fun h => (by cases h), rfl, rfl, fun b hb => by cases hb⟩
      simp only [replaced, Part.Data]
      exact ⟨trivial, rfl, h1⟩
    · rw [if_neg fun h => hacc h.2]
      simp only [hacc, Bool.and_false, Bool.false_eq_true, if_false]
      exact sim_unchanged st.after (hd.mono st.le)

/-- The type is converted and put into new memory first. -/
theorem sim_qualifyBuilt {fuel : Nat} {acc : Accepts} {t0 : TVal} {v0 : DVal} {o : Outcome TypeName}
    (ha : At h m) (hd : h.Data (.iface acc t0) v0) (hf : convNeed o ≤ fuel + 1) :
    Sim noAddr (onImports (IM.lift o) >>= fun t => buildType t >>= fun v => qualifyConvertedM fuel acc v0 v)
      (qualifyConverted acc (.iface acc t0) o) i h m fun a r h' _ => DataPostM (.iface acc t0) v0 a r h' := by
  cases o with
  | ok t =>
    rw [convNeed] at hf
    obtain ⟨v, h', m', e, st, ht⟩ := builds_type t h m i ha
    refine .left (m' := m) (h' := h) (b := t) rfl (.refl ha) (.left e st ?_)
    exact sim_qualifyConvertedM st.after (hd.mono st.le) ht (by omega)
  | panic => exact ⟨m, rfl⟩
  | hang => exact ⟨m, rfl⟩

theorem sim_qualifyObjectM {acc : Accepts} {t0 : TVal} {v0 : DVal} (ha : At h m) (hd : h.Data (.iface acc t0) v0) :
    ∀ o, Sim noAddr (qualifyObjectM acc v0 o) (qualifyObject acc (.iface acc t0) o) i h m
      fun a r h' _ => DataPostM (.iface acc t0) v0 a r h'
  | .symbol s => by
    refine (Sim.onImports (P := fun a b _ _ => a = b) ha fun _ => rfl).bind ?_
    rintro s' _ h' m' i' st rfl
    split
    · refine .pure st.after ⟨?_, rfl, fun h => (by cases h), rfl, rfl, fun b hb => by cases hb⟩
      simp only [replaced, Part.Data]
      exact ⟨trivial, rfl, trivial⟩
    · exact sim_unchanged st.after (hd.mono st.le)
  | .method s => by
    refine (Sim.onImports (P := fun a b _ _ => a = b) ha fun _ => rfl).bind ?_
    rintro s' _ h' m' i' st rfl
    split
    · refine .left (alloc_apply _ _ _) (st.after.alloc _) (.pure (st.after.alloc (W := noAddr) _).after
        ⟨?_, rfl, fun h => (by cases h), rfl, rfl, fun b hb => by cases hb⟩)
      simp only [replaced, Part.Data]
      refine ⟨trivial, rfl, .mref ⟨s', s.method⟩, ?_, by simp only [Part.Data]⟩
      simp [Part.dataAt, Part.add, Cell.at, DVal.at]
    · exact sim_unchanged st.after (hd.mono st.le)

theorem sim_qualifySpecInM {r : SpecRef} {t0 : TVal} {v0 : DVal} {pkg : Package} (ha : At h m) (hd : h.Data t0 v0)
    (ht : t0.isIface = false) (hp : t0.ifacePtr = false) :
    Sim noAddr (qualifySpecInM r v0 pkg) (qualifySpecIn r t0 pkg) i h m fun a r h' _ => DataPostM t0 v0 a r h' := by
  refine (Sim.onImports (P := fun a b _ _ => a = b) ha fun _ => rfl).bind ?_
  rintro s' _ h' m' i' st rfl
  split
  · exact sim_replacedAt st.after rfl ht hp fun _ => by simp only [Part.Data, and_self]
  · exact sim_unchanged st.after (hd.mono st.le)

end

theorem sim_sig {fuel : Nat} {h : Part} {m : Mem} {i : Imports} {sig : Signature} {p : Nat} {ms : MSig}
    (ha : At h m) (hf : sizeOf sig < fuel) (hp : m.cells p = some (.sig ms)) (hlt : p < m.next) (hs : h.Sig sig ms) :
    Sim noAddr (ensureAllTypesImportedM fuel p) (qualifySignature true sig) i h m fun a np h' _ =>
      (np = p ∧ a.2 = false ∧ h'.Sig a.1 ms) ∨
      (np ≠ p ∧ a.2 = true ∧ ∃ ms', h' np = some (.sig ms') ∧ h'.Sig a.1 ms') :=
  sim_qualifySignatureM
    (fun x hx => sim_qualifyTypeM true fuel _ (by
      have := sizeOf_arg hx
      have := sizeOf_sig_args sig
      omega))
    (fun x hx => sim_qualifyTypeM true fuel _ (by
      have := sizeOf_arg hx
      have := sizeOf_sig_results sig
      omega)) ha hp hlt hs

theorem sim_signature (H : Heap) {fuel : Nat} {addr : Bool} {s : Signature} (hf : sizeOf s + 2 ≤ fuel + 1) :
    DataSim (qualifyD H (fuel + 1) addr) (qualifyData H addr) (.signature s) := by
  intro v h m i ha hd
  cases v <;> simp only [Part.Data] at hd
  rename_i ms
  rw [qualifyData]
  have st0 : MStep noAddr h m (h.add m.next (.sig ms)) (m.after (.sig ms)) := ha.alloc _
  refine .left (alloc_apply _ _ _) st0 ?_
  have hs := hd.mono st0.le
  refine (sim_sig st0.after (by omega) (by simp [Mem.after]) (Nat.lt_succ_self _) hs).bind ?_
  rintro ⟨s', c⟩ np h' m' i' st post
  dsimp only at post ⊢
  rcases post with ⟨rfl, rfl, h1⟩ | ⟨h1, rfl, ms', h2, h3⟩
  · rw [if_neg (by simp)]
    refine .pure st.after ⟨?_, rfl, fun _ => rfl, rfl, rfl, fun b hb => by cases hb⟩
    simp only [unchanged, Part.Data]
    exact h1
  · rw [if_pos h1]
    refine .left (loadSig_of (st.after.le.get h2) i') (.refl st.after) (.pure st.after ⟨?_, rfl, fun h => (by cases h), rfl, rfl, ?_⟩)
    · simp only [Part.Data]
      exact h3
    · intro b hb
      cases hb
      simp [Part.dataAt, h2, Cell.at, DVal.inIface]

theorem IM.bind_assoc {α β γ : Type} (x : IM α) (f : α → IM β) (g : β → IM γ) :
    ((x >>= f) >>= g) = (x >>= fun a => f a >>= g) := by
  funext i
  simp only [IM.bind_apply]
  rcases x i with ⟨a | _ | _, i'⟩ <;> rfl

/-- A part of memory does not contain memory that was allocated later and not added to it. -/
theorem MStep.out {W : Nat → Prop} {h h' : Part} {m m' : Mem} (st : MStep W h m h' m') {b : Nat} (hb : b < m.next)
    (hn : h b = none) : h' b = none := st.outside hb hn

/-- New memory that was stored to joins the part in the end. -/
theorem Sim.stored {W : Nat → Prop} {h : Part} {m : Mem} {i : Imports} {x : MM DRes} {y : IM (TVal × Bool)} {t : TVal}
    {v : DVal} (hx : Sim W x y i h m fun a r h' m' => DataPostM t v a { r with addr := none } h' ∧
      ∀ b, r.addr = some b → h' b = none ∧ m'.cells b = some (.data r.val.inIface) ∧ b < m'.next ∧ m.next ≤ b)
    (hw : ∀ p < m.next, ¬W p) : Sim noAddr x y i h m fun a r h' _ => DataPostM t v a r h' := by
  refine hx.grow (fun p hp h => (hw p hp h).elim) ?_
  rintro a r h' m' st ⟨p1, p2⟩
  cases hr : r.addr with
  | none => exact ⟨h', st, p1.data, p1.changed, p1.same, p1.retyped, p1.iface, fun b hb => by simp [hr] at hb⟩
  | some b =>
    obtain ⟨q1, q2, q3, q4⟩ := p2 b hr
    refine ⟨_, st.join q2 q3 q1 q4, p1.data.mono (Part.le_add _ q1), p1.changed, p1.same, p1.retyped, p1.iface, ?_⟩
    intro b' hb
    rw [hr] at hb
    cases hb
    simp [Part.dataAt, Part.add, Cell.at, DVal.at]

theorem sim_method (H : Heap) {fuel : Nat} {addr : Bool} {mt : InterfaceMethod}
    (hf : sizeOf mt.signature + 2 ≤ fuel + 1) :
    DataSim (qualifyD H (fuel + 1) addr) (qualifyData H addr) (.method mt) := by
  intro v h m i ha hd
  cases v <;> simp only [Part.Data] at hd
  rename_i mm
  obtain ⟨e1, e2, e3, hd⟩ := hd
  rw [qualifyData, InterfaceMethod.qualify, IM.bind_assoc]
  let m0 := m.after (.sig mm.sig)
  let m1 := m0.after (.data (.method mm))
  let W : Nat → Prop := fun p => p = m0.next
  have n0 : m0.next = (m.next : Nat) + 1 := rfl
  have n1 : m1.next = (m.next : Nat) + 2 := rfl
  have st0 : MStep W h m h m0 := ha.alloc_private _
  have st1 : MStep W h m0 h m1 := st0.after.alloc_private _
  have hout : h m0.next = none := by
    cases hc : h m0.next with
    | none => rfl
    | some c => exact absurd (ha.lt _ _ hc) (by omega)
  have key : Sim W (qualifyD H (fuel + 1) addr (.method mm)) (do
      let a ← qualifySignature true mt.signature
      pure (TVal.method { mt with signature := a.1 }, a.2)) i h m fun a r h' m' =>
        DataPostM (.method mt) (.method mm) a { r with addr := none } h' ∧
        ∀ b, r.addr = some b → h' b = none ∧ m'.cells b = some (.data r.val.inIface) ∧ b < m'.next ∧ m.next ≤ b := by
    refine .left (alloc_apply _ _ _) st0 (.left (alloc_apply _ _ _) st1 ?_)
    have sim := sim_sig (i := i) st1.after (fuel := fuel) (by omega) (p := m.next) (ms := mm.sig)
      (by simp [m1, m0, Mem.after]) (by omega) hd
    refine (sim.steps (W' := W) fun p _ hp => hp.elim).bind ?_
    rintro ⟨s', c⟩ np h' m' i' - ⟨st, post⟩
    dsimp only at post ⊢
    rcases post with ⟨rfl, rfl, h1⟩ | ⟨h1, rfl, ms', h2, h3⟩
    · rw [if_neg (by simp)]
      refine .pure st.after ⟨⟨?_, rfl, fun _ => rfl, rfl, rfl, fun b hb => by cases hb⟩, fun b hb => by cases hb⟩
      simp only [unchanged, Part.Data]
      exact ⟨e1, e2, e3, h1⟩
    · rw [if_pos h1]
      have ho : h' m0.next = none := st.out (by omega) hout
      refine .left (loadSig_of (st.after.le.get h2) i') (.refl st.after) ?_
      have st2 : MStep W h' m' h' (m'.put m0.next (.data (.method { mm with sig := ms' }))) :=
        st.after.put _ ho fun _ => rfl
      refine .left (store_apply _ _ _ _) st2 (.pure st2.after ⟨⟨?_, rfl, fun h => (by cases h), rfl, rfl,
        fun b hb => by cases hb⟩, ?_⟩)
      · simp only [Part.Data]
        exact ⟨e1, e2, e3, h3⟩
      · intro b hb
        cases hb
        refine ⟨ho, by simp [Mem.put, DVal.inIface], ?_, Nat.le_succ _⟩
        have := st.next
        show m0.next < m'.next
        omega
  exact key.stored fun p hp hw => by
    have : p = m0.next := hw
    omega

theorem sim_embed (H : Heap) {fuel : Nat} {addr : Bool} {e : InterfaceEmbed} :
    DataSim (qualifyD H (fuel + 1) addr) (qualifyData H addr) (.embed e) := by
  intro v h m i ha hd
  cases v <;> simp only [Part.Data] at hd
  rw [hd]
  rw [qualifyData, InterfaceEmbed.qualify, IM.bind_assoc]
  let m0 := m.after (.data (.embed e))
  let W : Nat → Prop := fun p => p = m.next
  have n0 : m0.next = (m.next : Nat) + 1 := rfl
  have st0 : MStep W h m h m0 := ha.alloc_private _
  have key : Sim W (qualifyD H (fuel + 1) addr (.embed e)) (do
      let s ← ensureImported e.type
      pure (TVal.embed { e with type := s }, decide (e.type ≠ s))) i h m fun a r h' m' =>
        DataPostM (.embed e) (.embed e) a { r with addr := none } h' ∧
        ∀ b, r.addr = some b → h' b = none ∧ m'.cells b = some (.data r.val.inIface) ∧ b < m'.next ∧ m.next ≤ b := by
    refine .left (alloc_apply _ _ _) st0 ?_
    refine ((Sim.onImports (W := noAddr) (P := fun a b _ _ => a = b) st0.after fun _ => rfl).steps
      (W' := W) fun p _ hp => hp.elim).bind ?_
    rintro s _ h' m' i' - ⟨st, rfl⟩
    have ho : h' m.next = none := st.out (by omega) ha.free
    have st2 : MStep W h' m' h' (m'.put m.next (.data (.embed { e with type := s }))) :=
      st.after.put _ ho fun _ => rfl
    refine .left (store_apply _ _ _ _) st2 ?_
    by_cases hs : e.type = s
    · rw [if_neg (by simp [hs])]
      refine .pure st2.after ⟨⟨?_, by simp [hs, unchanged], fun _ => rfl, by simp [hs, unchanged], rfl,
        fun b hb => by cases hb⟩, fun b hb => by cases hb⟩
      simp only [unchanged, Part.Data, ← hs]
    · rw [if_pos hs]
      refine .pure st2.after ⟨⟨?_, by simp [hs], fun h => (by simp [hs] at h), by simp [TVal.ifacePtr], rfl,
        fun b hb => by cases hb⟩, ?_⟩
      · simp only [Part.Data]
      · intro b hb
        cases hb
        refine ⟨ho, by simp [Mem.put, DVal.inIface], ?_, Nat.le_refl _⟩
        have := st.next
        show m.next < m'.next
        omega
  exact key.stored fun p hp hw => by
    have : p = m.next := hw
    omega

theorem sim_ptr (H : Heap) {fuel : Nat} {addr : Bool} {t : TVal}
    (ih : DataSim (qualifyD H fuel true) (qualifyData H true) t) :
    DataSim (qualifyD H (fuel + 1) addr) (qualifyData H addr) (.ptr t) := by
  intro v h m i ha hd
  have hd0 := hd
  cases v <;> simp only [Part.Data] at hd
  rename_i a path
  obtain ⟨d, hd1, hd2⟩ := hd
  rw [qualifyData]
  let W : Nat → Prop := fun p => m.next ≤ p
  have hret : ∀ c, (c && (d.isIface || (c && t.ifacePtr))) = (c && (TVal.ptr t).ifacePtr) := by
    intro c
    rw [hd2.isIface]
    cases c
    · rfl
    · cases t <;> simp [TVal.isIface, TVal.ifacePtr]
  have key : Sim W (qualifyD H (fuel + 1) addr (.ptr a path)) (do
      let x ← qualifyData H true t
      pure (TVal.ptr (if x.2 then x.1.inIface else x.1), x.2)) i h m fun x r h' m' =>
        (r.addr = none ∧ r.changed = x.2 ∧ (x.2 = false → r.val = .ptr a path) ∧ 
          r.retyped = (x.2 && (TVal.ptr t).ifacePtr) ∧ x.1.isIface = false) ∧
        (h'.Data x.1 r.val ∨ ∃ t' b d', x.1 = .ptr t' ∧ r.val = .ptr b [] ∧ h'.Data t' d' ∧
          h' b = none ∧ m'.cells b = some (.data d') ∧ b < m'.next ∧ m.next ≤ b) := by
    refine .left (loadData_of_at ha hd1 i) (.refl ha) ?_
    refine ((ih d h m i ha hd2).steps (W' := W) fun p _ hp => hp.elim).bind ?_
    rintro ⟨t', c⟩ r h' m' i' - ⟨st, post⟩
    dsimp only
    have hc : r.changed = c := post.changed
    have hr : r.retyped = (c && t.ifacePtr) := post.retyped
    have hret := hret c
    cases c with
    | false =>
      rw [hc]
      simp only [Bool.false_eq_true, if_false]
      refine .pure st.after ⟨⟨rfl, rfl, fun _ => rfl, rfl, rfl⟩, .inl ?_⟩
      have e : r.val = d := post.same rfl
      have hdat : h'.Data t' r.val := post.data
      simp only [unchanged, Part.Data]
      exact ⟨d, Part.dataAt_mono st.le hd1, e ▸ hdat⟩
    | true =>
      rw [hc, hr]
      simp only [Bool.true_and] at hret
      simp only [if_true, Bool.true_and, hret]
      have hdat : h'.Data t' r.val := post.data
      cases hra : r.addr with
      | some b =>
        refine .pure st.after ⟨⟨rfl, rfl, fun h => (by cases h), rfl, rfl⟩, .inl ?_⟩
        simp only [Part.Data]
        exact ⟨_, post.addr b hra, hdat.inIface⟩
      | none =>
        have st1 : MStep W h' m' h' (m'.after (.data (.scalar 0))) := st.after.alloc_private _
        refine .left (alloc_apply _ _ _) st1 ?_
        have st2 : MStep W h' _ h' ((m'.after (.data (.scalar 0))).put m'.next (.data r.val.inIface)) :=
          st1.after.put _ st.after.free fun _ => st.next
        refine .left (store_apply _ _ _ _) st2 (.pure st2.after ⟨⟨rfl, rfl, fun h => (by cases h), rfl, rfl⟩,
          .inr ⟨_, _, _, rfl, rfl, hdat.inIface, st.after.free, ?_, ?_, st.next⟩⟩)
        · simp [Mem.put]
        · exact Nat.lt_succ_self _
  refine key.grow (fun p hp hw => ?_) ?_
  · exact absurd hw (by show ¬ m.next ≤ p; omega)
  · rintro x r h' m' st ⟨⟨p1, p2, p3, p4, p5⟩, p6 | ⟨t', b, d', e1, e2, q0, q1, q2, q3, q4⟩⟩
    · exact ⟨h', st, p6, p2, p3, p4, p5, fun b hb => by simp [p1] at hb⟩
    · refine ⟨_, st.join q2 q3 q1 q4, ?_, p2, p3, p4, p5, fun b hb => by simp [p1] at hb⟩
      rw [e1, e2]
      simp only [Part.Data]
      exact ⟨d', by simp [Part.dataAt, Part.add, Cell.at, DVal.at], q0.mono (Part.le_add _ q1)⟩

theorem sim_array (H : Heap) {fuel : Nat} {addr : Bool} {ts : List TVal}
    (ih : ∀ t ∈ ts, DataSim (qualifyD H fuel addr) (qualifyData H addr) t) :
    DataSim (qualifyD H (fuel + 1) addr) (qualifyData H addr) (.array ts) := by
  intro v h m i ha hd
  cases v <;> simp only [Part.Data] at hd
  rename_i vs
  have := qualifyDataElems_eq H .array addr (fun _ => rfl) ts false 0
  rw [Shape.sliceable] at this
  rw [qualifyData, this]
  refine (sim_parts (shape := .array) (addr := addr) trivial ih ha (reads_partOf h vs) hd).bind ?_
  rintro ⟨ts', c⟩ o h' m' i' st ⟨Y, hY, hlen, ho⟩
  cases o with
  | none =>
    obtain ⟨rfl, rfl⟩ := ho
    refine .pure st.after ⟨?_, rfl, fun _ => rfl, rfl, rfl, fun b hb => by cases hb⟩
    simp only [unchanged, Part.Data]
    exact hY
  | some a =>
    obtain ⟨rfl, ha'⟩ := ho
    have hl : h'.dataAt a [] = some (.array Y) := by simp [Part.dataAt, ha', Shape.cell, Cell.at, DVal.at]
    refine .left (loadData_of_at st.after hl i') (.refl st.after) (.pure st.after
      ⟨?_, rfl, fun h => (by cases h), rfl, rfl, ?_⟩)
    · simp only [Part.Data]
      exact hY
    · intro b hb
      cases hb
      exact hl

theorem sim_struct (H : Heap) {fuel : Nat} {addr : Bool} {fs : List (Bool × TVal)}
    (ih : ∀ t ∈ fs.map (·.2), DataSim (qualifyD H fuel addr) (qualifyData H addr) t) :
    DataSim (qualifyD H (fuel + 1) addr) (qualifyData H addr) (.struct fs) := by
  intro v h m i ha hd
  cases v <;> simp only [Part.Data] at hd
  rename_i vs
  rw [dataFields_iff] at hd
  obtain ⟨he, hd⟩ := hd
  rw [qualifyData, qualifyDataFields_start, IM.bind_assoc]
  rw [← he]
  refine (sim_parts (shape := .struct (vs.map (·.1))) (addr := addr) (by simp [Shape.Fits]) ih ha
    (reads_partOf h (vs.map (·.2))) hd).bind ?_
  rintro ⟨ts', c⟩ o h' m' i' st ⟨Y, hY, hlen, ho⟩
  have hl : Y.length = ts'.length := (dataElems_length hY)
  rw [List.length_map] at hlen
  have hz : ∀ Z : List DVal, Z.length = vs.length → h'.DataElems ts' Z →
      h'.DataFields ((vs.map (·.1)).zip ts') ((vs.map (·.1)).zip Z) := by
    intro Z h1 h2
    have h3 := dataElems_length h2
    rw [dataFields_iff, List.map_fst_zip (by simp; omega), List.map_fst_zip (by simp; omega),
      List.map_snd_zip (by simp; omega), List.map_snd_zip (by simp; omega)]
    exact ⟨rfl, h2⟩
  cases o with
  | none =>
    obtain ⟨rfl, rfl⟩ := ho
    refine .pure st.after ⟨?_, rfl, fun _ => rfl, rfl, rfl, fun b hb => by cases hb⟩
    have := hz _ (by simp) hY
    simp only [unchanged, Part.Data]
    have e : (vs.map (·.1)).zip (vs.map (·.2)) = vs := (List.zip_of_prod rfl rfl).symm
    rwa [e] at this
  | some a =>
    obtain ⟨rfl, ha'⟩ := ho
    have hl : h'.dataAt a [] = some (.struct ((vs.map (·.1)).zip Y)) := by
      simp [Part.dataAt, ha', Shape.cell, Cell.at, DVal.at]
    refine .left (loadData_of_at st.after hl i') (.refl st.after) (.pure st.after
      ⟨?_, rfl, fun h => (by cases h), rfl, rfl, ?_⟩)
    · simp only [Part.Data]
      exact hz _ hlen hY
    · intro b hb
      cases hb
      exact hl

theorem elems_whole' (h : Part) (a : Nat) {l : List Elem} (ha : h a = some (.array l)) (n : Nat) (hn : l.length = n) :
    h.elems ⟨a, 0, n⟩ = some l := by
  subst hn
  unfold Part.elems
  split
  · rename_i h0
    rw [List.length_eq_zero_iff.1 h0]
  · simp [ha]

theorem sim_slice (H : Heap) {fuel : Nat} {addr : Bool} {ts : List TVal}
    (ih : ∀ t ∈ ts, DataSim (qualifyD H fuel true) (qualifyData H true) t) :
    DataSim (qualifyD H (fuel + 1) addr) (qualifyData H addr) (.slice ts) := by
  intro v h m i ha hd
  cases v <;> simp only [Part.Data] at hd
  rename_i s
  obtain ⟨l, hl, hd⟩ := hd
  have := qualifyDataElems_eq H .slice true (fun _ => rfl) ts false 0
  have e : Shape.sliceable .slice true = true := rfl
  rw [e] at this
  rw [qualifyData, this]
  have hlen : s.len = l.length := by
    have := Part.elems_length hl
    rw [List.length_map] at this
    exact this.symm
  have sim := sim_parts (i := i) (shape := .slice) (addr := true) trivial ih ha (reads_slice hl) hd
  rw [← hlen] at sim
  refine sim.bind ?_
  rintro ⟨ts', c⟩ o h' m' i' st ⟨Y, hY, hlen, ho⟩
  cases o with
  | none =>
    obtain ⟨rfl, rfl⟩ := ho
    refine .pure st.after ⟨?_, rfl, fun _ => rfl, rfl, rfl, fun b hb => by cases hb⟩
    simp only [unchanged, Part.Data]
    exact ⟨_, Part.elems_mono st.le hl, hY⟩
  | some a =>
    obtain ⟨rfl, ha'⟩ := ho
    refine .pure st.after ⟨?_, rfl, fun h => (by cases h), rfl, rfl, fun b hb => by cases hb⟩
    simp only [replaced, Part.Data]
    refine ⟨Y, ?_, hY⟩
    have hw : h'.elems ⟨a, 0, s.len⟩ = _ := elems_whole' h' a ha' s.len (by
      rw [List.length_map]
      omega)
    exact hw

theorem sim_map (H : Heap) {fuel : Nat} {addr : Bool} {es : List (TVal × TVal)}
    (ih : ∀ e ∈ es, DataSim (qualifyD H fuel false) (qualifyData H false) e.1 ∧
      DataSim (qualifyD H fuel false) (qualifyData H false) e.2 ∧ KeepsKey (qualifyData H false) e.1 ∧
      e.1.Simple) :
    DataSim (qualifyD H (fuel + 1) addr) (qualifyData H addr) (.map es) := by
  intro v h m i ha hd
  have hd0 := hd
  cases v <;> simp only [Part.Data] at hd
  rename_i a
  obtain ⟨l, hl, hd, hu⟩ := hd
  rw [qualifyData, qualifyDataEntries_eq]
  refine .left (load_of_at ha hl i) (.refl ha) ?_
  refine (sim_entries (fun b d => new_qualifyD b H fuel false d) ih ha hd ((unequal_iff l).2 hu)).bind ?_
  rintro ⟨es', c⟩ o h' m' i' st ho
  cases o with
  | none =>
    cases ho
    simp only [Bool.false_eq_true, if_false]
    exact sim_unchanged st.after (hd0.mono st.le)
  | some b =>
    obtain ⟨rfl, M, h1, h2, h3⟩ := ho
    simp only [if_true]
    refine .pure st.after ⟨?_, rfl, fun h => (by cases h), rfl, rfl, fun b hb => by cases hb⟩
    simp only [replaced, Part.Data]
    exact ⟨M, h1, h2, (unequal_iff M).1 h3⟩

theorem sim_qualifyD (H : Heap) : ∀ (fuel : Nat) (addr : Bool) (t : TVal), t.need ≤ fuel → t.simpleKeys = true →
    DataSim (qualifyD H fuel addr) (qualifyData H addr) t
  | 0, _, t, hf, _ => by
    have : 0 < t.need := by
      cases t <;> rw [TVal.need] <;> first
        | omega
        | (unfold convNeed; split <;> omega)
        | (intros; contradiction)
    omega
  | fuel + 1, addr, t, hf, hv => by
    have ih := sim_qualifyD H fuel
    intro v h m i ha hd
    cases t with
    | iface acc t =>
      cases v <;> simp only [Part.Data] at hd
      rename_i acc' d
      obtain ⟨rfl, hti, hd⟩ := hd
      have hd' : h.Data (.iface acc' t) (.iface acc' d) := by
        simp only [Part.Data]
        exact ⟨trivial, hti, hd⟩
      rw [TVal.need] at hf
      rw [TVal.simpleKeys] at hv
      have hin : Sim noAddr (do
          let r ← qualifyD H fuel false d
          if r.changed then pure { r with val := .iface acc' r.val, retyped := false }
          else pure (unchanged (.iface acc' d))) (do
          let (v', c) ← qualifyData H false t
          pure (.iface acc' v', c)) i h m fun a r h' _ => DataPostM (.iface acc' t) (.iface acc' d) a r h' := by
        refine (ih false t (by omega) hv d h m i ha hd).bind ?_
        rintro ⟨t', c⟩ r h' m' i' st post
        dsimp only
        have hi : t'.isIface = false := post.iface.trans hti
        rw [post.changed]
        dsimp only
        cases c with
        | false =>
          have e : r.val = d := post.same rfl
          simp only [Bool.false_eq_true, if_false]
          refine .pure st.after ⟨?_, rfl, fun _ => rfl, rfl, rfl, fun b hb => by cases hb⟩
          simp only [unchanged, Part.Data]
          exact ⟨trivial, hi, e ▸ post.data⟩
        | true =>
          simp only [if_true]
          refine .pure st.after ⟨?_, rfl, fun h => (by cases h), rfl, rfl, fun b hb => ?_⟩
          · simp only [Part.Data]
            exact ⟨trivial, hi, post.data⟩
          · have := post.addr b hb
            rwa [inIface_of_not (post.data.isIface.trans hi)] at this
      cases t <;> cases d <;> simp only [Part.Data] at hd <;> rw [qualifyData] <;> first
        | exact hin
        | (simp [TVal.isIface] at hti; done)
        | (intros; contradiction)
        | skip
      case typeName.typeName =>
        rw [TVal.need] at hf
        exact sim_qualifyConvertedM ha hd' hd (by omega)
      case reflectType.reflectType =>
        subst hd
        rw [TVal.need] at hf
        exact sim_qualifyBuilt ha hd' (by omega)
      case goType.goType =>
        subst hd
        rw [TVal.need] at hf
        exact sim_qualifyBuilt ha hd' (by omega)
      case goObject.goObject =>
        subst hd
        refine (Sim.onImports (P := fun a b _ _ => a = b) ha fun _ => rfl).bind ?_
        rintro sm _ h' m' i' st rfl
        exact sim_qualifyObjectM st.after (hd'.mono st.le) sm
      case goPackage.goPackage =>
        subst hd
        refine (Sim.onImports (P := fun a b _ _ => a = b) ha fun _ => rfl).bind ?_
        rintro p _ h' m' i' st rfl
        refine (Sim.onImports (P := fun a b _ _ => a = b) st.after fun _ => rfl).bind ?_
        rintro n _ h'' m'' i'' st' rfl
        split
        · refine .pure st'.after ⟨?_, rfl, fun h => (by cases h), rfl, rfl, fun b hb => by cases hb⟩
          simp only [replaced, Part.Data]
          exact ⟨trivial, rfl, trivial⟩
        · exact sim_unchanged st'.after (hd'.mono (st.trans st').le)
    | package p =>
      have hd0 := hd
      cases v <;> simp only [Part.Data] at hd
      subst hd
      rw [qualifyData]
      refine (Sim.onImports (P := fun a b _ _ => a = b) ha fun _ => rfl).bind ?_
      rintro n _ h' m' i' st rfl
      split
      · exact sim_replacedAt st.after rfl rfl rfl fun _ => by simp only [Part.Data]
      · exact sim_unchanged st.after (hd0.mono st.le)
    | symbol s =>
      have hd0 := hd
      cases v <;> simp only [Part.Data] at hd
      subst hd
      rw [qualifyData]
      refine (Sim.onImports (P := fun a b _ _ => a = b) ha fun _ => rfl).bind ?_
      rintro s' _ h' m' i' st rfl
      split
      · rename_i hs
        rw [decide_eq_true hs]
        exact sim_replacedAt st.after rfl rfl rfl fun _ => by simp only [Part.Data]
      · rename_i hs
        rw [decide_eq_false hs]
        rw [not_not.1 hs]
        exact sim_unchanged st.after (hd0.mono st.le)
    | mref r =>
      have hd0 := hd
      cases v <;> simp only [Part.Data] at hd
      subst hd
      rw [qualifyData]
      refine (Sim.onImports (P := fun a b _ _ => a = b) ha fun _ => rfl).bind ?_
      rintro s' _ h' m' i' st rfl
      split
      · rename_i hs
        rw [decide_eq_true hs]
        exact sim_replacedAt st.after rfl rfl rfl fun _ => by simp only [Part.Data]
      · rename_i hs
        rw [decide_eq_false hs]
        rw [not_not.1 hs]
        exact sim_unchanged st.after (hd0.mono st.le)
    | spec r =>
      have hd0 := hd
      cases v <;> simp only [Part.Data] at hd
      subst hd
      rw [qualifyData]
      refine (Sim.onImports (P := fun a b _ _ => a = b) ha fun _ => rfl).bind ?_
      rintro parent _ h' m' i' st rfl
      cases parent with
      | none => exact sim_unchanged st.after (hd0.mono st.le)
      | some f =>
        refine (Sim.onImports (P := fun a b _ _ => a = b) st.after fun _ => rfl).bind ?_
        rintro f _ h'' m'' i'' st' rfl
        exact sim_qualifySpecInM st'.after (hd0.mono (st.trans st').le) rfl rfl
    | specCopy r n =>
      have hd0 := hd
      cases v <;> simp only [Part.Data] at hd
      obtain ⟨rfl, rfl⟩ := hd
      rw [qualifyData]
      exact sim_qualifySpecInM ha hd0 rfl rfl
    | signature s =>
      rw [TVal.need] at hf
      exact sim_signature H hf v h m i ha hd
    | method mt =>
      rw [TVal.need] at hf
      exact sim_method H hf v h m i ha hd
    | embed e => exact sim_embed H v h m i ha hd
    | ptr t =>
      rw [TVal.need] at hf
      rw [TVal.simpleKeys] at hv
      exact sim_ptr H (ih true t (by omega) hv) v h m i ha hd
    | struct fs =>
      rw [TVal.need] at hf
      rw [TVal.simpleKeys] at hv
      refine sim_struct H (fun t ht => ih addr t ?_ (simpleKeys_field hv ht)) v h m i ha hd
      have := need_field ht
      omega
    | array vs =>
      rw [TVal.need] at hf
      rw [TVal.simpleKeys] at hv
      refine sim_array H (fun t ht => ih addr t ?_ (simpleKeys_elem hv ht)) v h m i ha hd
      have := need_elem ht
      omega
    | slice vs =>
      rw [TVal.need] at hf
      rw [TVal.simpleKeys] at hv
      refine sim_slice H (fun t ht => ih true t ?_ (simpleKeys_elem hv ht)) v h m i ha hd
      have := need_elem ht
      omega
    | map es =>
      rw [TVal.need] at hf
      rw [TVal.simpleKeys] at hv
      refine sim_map H (fun e he => ?_) v h m i ha hd
      have h1 := need_entry he
      obtain ⟨h2, h3, h4⟩ := simpleKeys_entry hv he
      exact ⟨ih false e.1 (by omega) h3, ih false e.2 (by omega) h4, keepsKey H h2 false, h2⟩
    | scalar n | imports | typeName t | reflectType t | goType t | goObject o | goPackage p =>
      have hd0 := hd
      cases v <;> simp only [Part.Data] at hd
      rw [qualifyData]
      · exact sim_unchanged ha hd0
      all_goals (intros; contradiction)

/-- A computation in memory that is followed by something pure. -/
theorem Sim.last {α β δ : Type} {W : Nat → Prop} {i : Imports} {h : Part} {m : Mem} {x : MM β} {y : IM α}
    {P : α → β → Part → Mem → Prop} {k : β → δ} {Q : α → δ → Part → Mem → Prop} (hx : Sim W x y i h m P)
    (hPQ : ∀ a b h' m', Imports → MStep W h m h' m' → P a b h' m' → Q a (k b) h' m') :
    Sim W (x >>= fun b => Pure.pure (k b)) y i h m Q := by
  unfold Sim at hx ⊢
  rw [MM.bind_apply]
  rcases hy : y i with ⟨a | _ | _, i'⟩
  · rw [hy] at hx
    obtain ⟨b, h', m', e, s, p⟩ := hx
    rw [e]
    exact ⟨_, h', m', rfl, s, hPQ _ _ _ _ i s p⟩
  · rw [hy] at hx
    obtain ⟨m', e⟩ := hx
    rw [e]
    exact ⟨m', rfl⟩
  · rw [hy] at hx
    obtain ⟨m', e⟩ := hx
    rw [e]
    exact ⟨m', rfl⟩

/-- `QualifyTemplateData` as a whole. -/
theorem sim_qualifyTemplateDataM (H : Heap) {fuel : Nat} {t : TVal} {v : DVal} (hf : t.need + 1 ≤ fuel)
    (hv : t.simpleKeys = true) (ht : t.isIface = false) {h : Part} {m : Mem} (i : Imports) (ha : At h m)
    (hd : h.Data t v) :
    Sim noAddr (qualifyTemplateDataM H fuel v) (qualifyData H true (.iface acceptsAll t)) i h m
      fun a r h' _ => h'.Data a.1.inIface r ∧ (a.2 = false → r = v) := by
  have st : MStep noAddr h m (h.add m.next (.array [.data (.iface acceptsAll v)])) (m.after _) := ha.alloc _
  refine .left (alloc_apply _ _ _) st ?_
  have hl := elems_whole' (l := [.data (.iface acceptsAll v)])
    (h.add m.next (.array [.data (.iface acceptsAll v)])) m.next (by simp [Part.add]) 1 rfl
  refine .left (reads_slice (l := [.iface acceptsAll v]) hl _ _ i (.refl _) st.after [] _ [] rfl) (.refl st.after) ?_
  have hd' : h.Data (.iface acceptsAll t) (.iface acceptsAll v) := by
    simp only [Part.Data]
    exact ⟨trivial, ht, hd⟩
  have sim := sim_qualifyD H fuel true (.iface acceptsAll t) (by rw [TVal.need]; exact hf)
    (by rw [TVal.simpleKeys]; exact hv) _ _ _ i st.after (hd'.mono st.le)
  refine sim.last ?_
  rintro ⟨a, c⟩ r h' m' i' st' post
  have hdat : h'.Data a r.val := post.data
  refine ⟨hdat.inIface, fun hc => ?_⟩
  have : r.val = .iface acceptsAll v := post.same hc
  rw [this]
  rfl

end Gopoet
