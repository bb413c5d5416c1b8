import Verif.Proof.MemoryTypes
/-!
# Qualification in memory computes what qualification of trees computes (the functions)
-/

namespace Gopoet
open MM Imports

/-! ## The loops on trees -/

/-- One argument. -/
def argQ (r : Bool) (a : ArgType) : IM (ArgType × Bool) := do
  let x ← qualifyType r a.type
  pure (⟨a.name, x.1⟩, x.2)
/-- One field. -/
def fieldQ (r : Bool) (a : FieldType) : IM (FieldType × Bool) := do
  let x ← qualifyType r a.type
  pure (⟨a.name, x.1, a.tag⟩, x.2)
/-- One method. -/
def methodQ (r : Bool) (a : MethodType) : IM (MethodType × Bool) := do
  let x ← qualifySignature r a.signature
  pure (⟨a.name, x.1⟩, x.2)
/-- One symbol. -/
def symQ (r : Bool) (s : Symbol) : IM (Symbol × Bool) := do
  let x ← qualify s r
  pure (x, decide (x ≠ s))

theorem qualifyArgs_eq (r : Bool) : ∀ l, qualifyArgs r l = listQ (argQ r) l
  | [] => by rw [qualifyArgs, listQ]
  | ⟨n, t⟩ :: l => by
    rw [qualifyArgs, listQ, qualifyArgs_eq r l]
    funext i
    simp only [IM.bind_apply, argQ]
    rcases qualifyType r t i with ⟨_ | _ | _, i'⟩ <;> rfl

theorem qualifyFields_eq (r : Bool) : ∀ l, qualifyFields r l = listQ (fieldQ r) l
  | [] => by rw [qualifyFields, listQ]
  | ⟨n, t, _⟩ :: l => by
    rw [qualifyFields, listQ, qualifyFields_eq r l]
    funext i
    simp only [IM.bind_apply, fieldQ]
    rcases qualifyType r t i with ⟨_ | _ | _, i'⟩ <;> rfl

theorem qualifyMethods_eq (r : Bool) : ∀ l, qualifyMethods r l = listQ (methodQ r) l
  | [] => by rw [qualifyMethods, listQ]
  | ⟨n, s⟩ :: l => by
    rw [qualifyMethods, listQ, qualifyMethods_eq r l]
    funext i
    simp only [IM.bind_apply, methodQ]
    rcases qualifySignature r s i with ⟨_ | _ | _, i'⟩ <;> rfl

theorem qualifySymbols_eq (r : Bool) : ∀ l, qualifySymbols r l = listQ (symQ r) l
  | [] => by rw [qualifySymbols, listQ]
  | s :: l => by
    rw [qualifySymbols, listQ, qualifySymbols_eq r l]
    funext i
    simp only [IM.bind_apply, symQ]
    rcases qualify s r i with ⟨_ | _ | _, i'⟩ <;> rfl

/-! ## Slices -/

/-- `q` qualifies the type `t` in memory. -/
def TypeSim (r : Bool) (q : MType → MM MType) (t : TypeName) : Prop :=
  ∀ v h m i, At h m → h.Type t v → Sim noAddr (q v) (qualifyType r t) i h m fun a v' h' _ =>
    h'.Type a.1 v' ∧ (v' = v ↔ a.2 = false)

theorem elemSim_arg {r : Bool} {q : MType → MM MType} {a : ArgType} (hq : TypeSim r q a.type) :
    ElemSim noAddr ArgAt (fun
      | .arg name type => do
        let nt ← q type
        if nt ≠ type then pure (some (.arg name nt)) else pure none
      | _ => panic) (argQ r) a := by
  intro e h m i ha _ hR
  cases e with
  | arg n v =>
    refine (hq v h m i ha hR.2).bind ?_
    rintro ⟨t', c⟩ v' h' m' i' s ⟨h1, h2⟩
    dsimp only at h1 h2 ⊢
    by_cases hv : v' = v
    · rw [if_neg (by simp [hv])]
      exact .pure s.after ⟨h2.1 hv, hR.1, hv ▸ h1⟩
    · rw [if_pos hv]
      exact .pure s.after ⟨by simpa [hv] using h2, hR.1, h1⟩
  | _ => exact hR.elim

theorem elemSim_field {r : Bool} {q : MType → MM MType} {a : FieldType} (hq : TypeSim r q a.type) :
    ElemSim noAddr FieldAt (fun
      | .field name type tag => do
        let nt ← q type
        if nt ≠ type then pure (some (.field name nt tag)) else pure none
      | _ => panic) (fieldQ r) a := by
  intro e h m i ha _ hR
  cases e with
  | field n v tag =>
    refine (hq v h m i ha hR.2.2).bind ?_
    rintro ⟨t', c⟩ v' h' m' i' s ⟨h1, h2⟩
    dsimp only at h1 h2 ⊢
    by_cases hv : v' = v
    · rw [if_neg (by simp [hv])]
      exact .pure s.after ⟨h2.1 hv, hR.1, hR.2.1, hv ▸ h1⟩
    · rw [if_pos hv]
      exact .pure s.after ⟨by simpa [hv] using h2, hR.1, hR.2.1, h1⟩
  | _ => exact hR.elim

theorem elemSim_sym (r : Bool) (s : Symbol) :
    ElemSim noAddr SymAt (fun
      | .sym s => do
        let nt ← onImports (qualify s r)
        if nt ≠ s then pure (some (.sym nt)) else pure none
      | _ => panic) (symQ r) s := by
  intro e h m i ha _ hR
  rw [SymAt] at hR
  subst hR
  refine (Sim.onImports (P := fun a b _ _ => a = b) ha fun _ => rfl).bind ?_
  rintro nt _ h' m' i' st rfl
  by_cases hn : nt = s
  · rw [if_neg (by simp [hn])]
    exact .pure st.after ⟨by simp [hn], by rw [SymAt, hn]⟩
  · rw [if_pos hn]
    exact .pure st.after ⟨by simp [hn], rfl⟩

section
variable {r : Bool} {q : MType → MM MType} {h : Part} {m : Mem} {i : Imports} {s : Slice} {E : List Elem}

theorem sim_qualifyArgsM_from {l : List ArgType} (hq : ∀ a ∈ l, TypeSim r q a.type) (a : At h m)
    (hl : h.elems s = some E) (hE : h.Args l E) :
    Sim noAddr (qualifyArgsM q s) (qualifyArgs r l) i h m fun a s' h' _ =>
      ∃ Y, h'.elems s' = some Y ∧ h'.Args a.1 Y ∧ (s' = s ↔ a.2 = false) ∧ s.From m.next h' s' := by
  rw [qualifyArgs_eq]
  simp only [args_iff] at hE ⊢
  exact sim_rangeCopy_from (R := ArgAt) ArgAt.mono (fun x hx => elemSim_arg (hq x hx)) a (fun _ hp => hp.elim) hl hE

theorem sim_qualifyFieldsM {l : List FieldType} (hq : ∀ a ∈ l, TypeSim r q a.type) (a : At h m)
    (hl : h.elems s = some E) (hE : h.Fields l E) :
    Sim noAddr (qualifyFieldsM q s) (qualifyFields r l) i h m fun a s' h' _ =>
      ∃ Y, h'.elems s' = some Y ∧ h'.Fields a.1 Y ∧ (s' = s ↔ a.2 = false) := by
  rw [qualifyFields_eq]
  simp only [fields_iff] at hE ⊢
  exact sim_rangeCopy (R := FieldAt) FieldAt.mono (fun x hx => elemSim_field (hq x hx)) a (fun _ hp => hp.elim) hl hE

theorem sim_qualifySymbolsM {l : List Symbol} (a : At h m) (hl : h.elems s = some E) (hE : Part.Syms l E) :
    Sim noAddr (qualifySymbolsM r s) (qualifySymbols r l) i h m fun a s' h' _ =>
      ∃ Y, h'.elems s' = some Y ∧ Part.Syms a.1 Y ∧ (s' = s ↔ a.2 = false) := by
  rw [qualifySymbols_eq]
  rw [syms_iff h] at hE
  refine (sim_rangeCopy (R := SymAt) SymAt.mono (fun x _ => elemSim_sym r x) a (fun _ hp => hp.elim) hl hE).mono
    (fun _ _ hp => hp) ?_
  rintro b s' h' m' - ⟨Y, h1, h2, h3⟩
  exact ⟨Y, h1, (syms_iff h' _ _).2 h2, h3⟩

theorem Slice.From.arr_lt {n : Nat} {h : Part} {m : Mem} {s s' : Slice} (f : s.From n h s') (a : At h m)
    (hne : s' ≠ s) : n ≤ s'.arr ∧ s'.arr < m.next := by
  rcases f with rfl | ⟨h1, -, l, h2, -⟩
  · exact absurd rfl hne
  · exact ⟨h1, a.lt _ _ h2⟩

theorem Slice.From.step {W : Nat → Prop} {n : Nat} {h h' : Part} {m m' : Mem} {s s' : Slice} (f : s.From n h s')
    (a : At h m) (st : MStep W h m h' m') : s.From n h' s' := by
  rcases f with rfl | ⟨h1, h0, l, h2, h3⟩
  · exact .inl rfl
  · exact .inr ⟨h1, h0, l, (st.old _ (a.lt _ _ h2)).trans h2, h3⟩

/-- `qualifySignature` -/
theorem sim_qualifySignatureM_from {sig : Signature} {p : Nat} {ms : MSig}
    (hargs : ∀ a ∈ sig.args, TypeSim r q a.type) (hres : ∀ a ∈ sig.results, TypeSim r q a.type)
    (a : At h m) (hp : m.cells p = some (.sig ms)) (hlt : p < m.next) (hs : h.Sig sig ms) :
    Sim noAddr (qualifySignatureM q p) (qualifySignature r sig) i h m fun a np h' _ =>
      (np = p ∧ a.2 = false ∧ h'.Sig a.1 ms) ∨
      (np ≠ p ∧ a.2 = true ∧ m.next ≤ np ∧ ∃ ms', h' np = some (.sig ms') ∧ h'.Sig a.1 ms' ∧
        ms.args.From m.next h' ms'.args ∧ ms.results.From m.next h' ms'.results ∧
        (ms'.args = ms.args ∨ ms'.results = ms.results ∨ ms'.args.arr ≠ ms'.results.arr)) := by
  obtain ⟨args, results, va⟩ := sig
  rw [Part.Sig] at hs
  obtain ⟨hva, E, E', h1, h2, h3, h4⟩ := hs
  rw [qualifySignature]
  refine .left (loadSig_of hp i) (.refl a) ?_
  refine (sim_qualifyArgsM_from hargs a h1 h2).bind ?_
  rintro ⟨nargs, ca⟩ s1 h' m' i' st ⟨Y, g1, g2, g3, g4⟩
  have hp' : m'.cells p = some (.sig ms) := (st.same p hlt id).trans hp
  refine .left (loadSig_of hp' i') (.refl st.after) ?_
  refine (sim_qualifyArgsM_from hres st.after (Part.elems_mono st.le h3) (h4.mono st.le _ _)).bind ?_
  rintro ⟨nres, cr⟩ s2 h'' m'' i'' st' ⟨Y', k1, k2, k3, k4⟩
  have hp'' : m''.cells p = some (.sig ms) := (st'.same p (Nat.lt_of_lt_of_le hlt st.next) id).trans hp'
  refine .left (loadSig_of hp'' i'') (.refl st'.after) ?_
  dsimp only at g2 g3 k2 k3 ⊢
  have g1' := Part.elems_mono st'.le g1
  have g2' := g2.mono st'.le _ _
  by_cases hc : s1 = ms.args ∧ s2 = ms.results
  · obtain ⟨rfl, rfl⟩ := hc
    have e1 : ca = false := g3.1 rfl
    have e2 : cr = false := k3.1 rfl
    subst e1 e2
    rw [if_neg (by simp)]
    simp only [Bool.or_self, Bool.false_eq_true, if_false]
    refine .pure st'.after (.inl ⟨rfl, rfl, ?_⟩)
    rw [Part.Sig]
    exact ⟨hva, E, E', Part.elems_mono (st.le.trans st'.le) h1, h2.mono (st.le.trans st'.le) _ _,
      Part.elems_mono (st.le.trans st'.le) h3, h4.mono (st.le.trans st'.le) _ _⟩
  · have hcc : (ca || cr) = true := by
      cases ca <;> cases cr <;> simp_all
    rw [if_pos (by by_cases h5 : s1 = ms.args <;> simp_all), if_pos hcc]
    refine ⟨m''.next, h''.add m''.next _, _, alloc_apply _ _ _, st'.after.alloc _,
      .inr ⟨?_, rfl, Nat.le_trans st.next st'.next, ⟨s1, s2, ms.isVariadic⟩, ?_, ?_, (g4.step st.after st').step st'.after (st'.after.alloc _ : MStep noAddr _ _ _ _), ?_, ?_⟩⟩
    · have := Nat.lt_of_lt_of_le hlt (Nat.le_trans st.next st'.next)
      omega
    · simp [Part.add]
    · rw [Part.Sig]
      have le := Part.le_add (h := h'') (.sig ⟨s1, s2, ms.isVariadic⟩) st'.after.free
      exact ⟨hva, Y, Y', Part.elems_mono le g1', g2'.mono le _ _, Part.elems_mono le k1, k2.mono le _ _⟩
    · rcases k4.step st'.after (st'.after.alloc (.sig ⟨s1, s2, ms.isVariadic⟩) : MStep noAddr _ _ _ _) with h | ⟨h, h'⟩
      · exact .inl h
      · exact .inr ⟨Nat.le_trans st.next h, h'⟩
    · by_cases e1 : s1 = ms.args
      · exact .inl e1
      · by_cases e2 : s2 = ms.results
        · exact .inr (.inl e2)
        · have := g4.arr_lt st.after e1
          have := k4.arr_lt st'.after e2
          exact .inr (.inr (by dsimp only; omega))

/-- `qualifySignature` -/
theorem sim_qualifySignatureM {sig : Signature} {p : Nat} {ms : MSig}
    (hargs : ∀ a ∈ sig.args, TypeSim r q a.type) (hres : ∀ a ∈ sig.results, TypeSim r q a.type)
    (a : At h m) (hp : m.cells p = some (.sig ms)) (hlt : p < m.next) (hs : h.Sig sig ms) :
    Sim noAddr (qualifySignatureM q p) (qualifySignature r sig) i h m fun a np h' _ =>
      (np = p ∧ a.2 = false ∧ h'.Sig a.1 ms) ∨
      (np ≠ p ∧ a.2 = true ∧ ∃ ms', h' np = some (.sig ms') ∧ h'.Sig a.1 ms') := by
  refine (sim_qualifySignatureM_from hargs hres a hp hlt hs).mono (fun _ _ hp => hp) ?_
  rintro b np h' m' - (h1 | ⟨h1, h2, -, ms', h3, h4, -⟩)
  · exact .inl h1
  · exact .inr ⟨h1, h2, ms', h3, h4⟩

/-- One method: the loop variable `l` is stored to. -/
theorem elemSim_method {l : Nat} {a : MethodType} (hargs : ∀ x ∈ a.signature.args, TypeSim r q x.type)
    (hres : ∀ x ∈ a.signature.results, TypeSim r q x.type) :
    ElemSim (fun p => p = l) MethodAt (fun
      | .method name sig => do
        store l (.sig sig)
        let ns ← qualifySignatureM q l
        if ns ≠ l then do
          let s ← loadSig ns
          pure (some (.method name s))
        else pure none
      | _ => panic) (methodQ r) a := by
  intro e h m i ha hW hR
  cases e with
  | method n ms =>
    have hl := hW l rfl
    have st : MStep (fun p => p = l) h m h (m.put l (.sig ms)) := ha.put _ hl.2 fun _ => rfl
    refine .left (store_apply _ _ _ _) st ?_
    refine ((sim_qualifySignatureM hargs hres st.after (by simp [Mem.put]) hl.1 hR.2).mono
      (fun _ _ hp => hp.elim) fun _ _ _ _ s p => p).bind ?_
    rintro ⟨sig', c⟩ np h' m' i' s hp
    dsimp only at hp ⊢
    rcases hp with ⟨h1, h2, h3⟩ | ⟨h1, h2, ms', h3, h4⟩
    · rw [if_neg (by simp [h1])]
      exact .pure s.after ⟨h2, hR.1, h3⟩
    · rw [if_pos h1]
      refine .left (loadSig_of (s.after.le.get h3) _) (.refl s.after) (.pure s.after ⟨h2, hR.1, h4⟩)
  | _ => exact hR.elim

theorem sim_qualifyMethodsM {l : List MethodType}
    (hargs : ∀ a ∈ l, ∀ x ∈ a.signature.args, TypeSim r q x.type)
    (hres : ∀ a ∈ l, ∀ x ∈ a.signature.results, TypeSim r q x.type) (a : At h m)
    (hl : h.elems s = some E) (hE : h.Methods l E) :
    Sim noAddr (qualifyMethodsM q s) (qualifyMethods r l) i h m fun a s' h' _ =>
      ∃ Y, h'.elems s' = some Y ∧ h'.Methods a.1 Y ∧ (s' = s ↔ a.2 = false) := by
  rw [qualifyMethods_eq]
  simp only [methods_iff] at hE ⊢
  have st : MStep (fun p => p = m.next) h m h (m.after (.sig ⟨⟨0, 0, 0⟩, ⟨0, 0, 0⟩, false⟩)) := a.alloc_private _
  refine Sim.mono (W := fun p => p = m.next) (.left (alloc_apply _ _ _) st
    (sim_rangeCopy (R := MethodAt) MethodAt.mono (fun x hx => elemSim_method (hargs x hx) (hres x hx)) st.after
      (fun p hp => hp ▸ ⟨Nat.lt_succ_self _, a.free⟩) hl hE)) (fun p hp hn => by omega) fun _ _ _ _ _ p => p

end

/-! ## Types -/

theorem type_nil {h : Part} {t : TypeName} {v : MType} (ht : h.Type t v) : v = .nil ↔ t.isNil = true := by
  cases t <;> cases v <;> simp_all [Part.Type, TypeName.isNil]

theorem any_nil {h : Part} : ∀ {l : List ArgType} {E : List Elem}, h.Args l E →
    E.any Elem.nilTyped = l.any (·.type.isNil)
  | [], [], _ => rfl
  | [], _ :: _, hh => by simp [Part.Args] at hh
  | ⟨_, _⟩ :: _, [], hh => by simp [Part.Args] at hh
  | ⟨n, t⟩ :: l, e :: E, hh => by
    cases e with
    | arg n' v =>
      rw [Part.Args] at hh
      rw [List.any_cons, List.any_cons, any_nil hh.2.2]
      congr 1
      have := type_nil hh.2.1
      cases v <;> cases t <;> simp_all [TypeName.isNil, Part.Type, Elem.nilTyped]
    | _ => simp [Part.Args] at hh

theorem getLast_args {h : Part} : ∀ {l : List ArgType} {E : List Elem}, h.Args l E →
    (l.getLast? = none ∧ E.getLast? = none) ∨
      ∃ n t v, l.getLast? = some ⟨n, t⟩ ∧ E.getLast? = some (.arg n v) ∧ h.Type t v
  | [], [], _ => .inl ⟨rfl, rfl⟩
  | [], _ :: _, hh => by simp [Part.Args] at hh
  | ⟨_, _⟩ :: _, [], hh => by simp [Part.Args] at hh
  | ⟨n, t⟩ :: l, e :: E, hh => by
    cases e with
    | arg n' v =>
      rw [Part.Args] at hh
      obtain ⟨rfl, h2, h3⟩ := hh
      right
      rcases getLast_args h3 with ⟨h4, h5⟩ | ⟨n2, t2, v2, h4, h5, h6⟩
      · rw [List.getLast?_eq_none_iff] at h4 h5
        subst h4 h5
        exact ⟨_, _, _, rfl, rfl, h2⟩
      · refine ⟨n2, t2, v2, ?_, ?_, h6⟩
        · rw [List.getLast?_cons, h4]
          rfl
        · rw [List.getLast?_cons, h5]
          rfl
    | _ => simp [Part.Args] at hh

theorem sim_funcTypeFromSigM {h : Part} {m : Mem} {i : Imports} {p : Nat} {sig : Signature} {s : MSig}
    (a : At h m) (hp : h p = some (.sig s)) (hs : h.Sig sig s) :
    Sim noAddr (funcTypeFromSigM p) (IM.lift (funcTypeFromSig sig)) i h m fun t v h' _ =>
      v = .func p ∧ h'.Type t v := by
  have hs' := hs
  obtain ⟨args, results, va⟩ := sig
  rw [Part.Sig] at hs
  obtain ⟨rfl, E, E', h1, h2, h3, h4⟩ := hs
  refine .left (loadSig_of (a.le.get hp) i) (.refl a) ?_
  refine .left (loadSlice_of_at a h1 i) (.refl a) ?_
  refine .left (loadSlice_of_at a h3 i) (.refl a) ?_
  rw [any_nil h2, any_nil h4, funcTypeFromSig]
  dsimp only
  have hok : Sim noAddr (pure (.func p)) (IM.lift (.ok (.func ⟨args, results, s.isVariadic⟩))) i h m
      fun t v (h' : Part) _ => v = .func p ∧ h'.Type t v :=
    ⟨_, h, m, rfl, .refl a, rfl, by rw [Part.Type]; exact ⟨s, hp, hs'⟩⟩
  have hbad : Sim noAddr (panic : MM MType) (IM.lift (.panic : Outcome TypeName)) i h m
      fun t v (h' : Part) _ => v = .func p ∧ h'.Type t v := ⟨m, rfl⟩
  by_cases hb1 : args.any (·.type.isNil) = true
  · rw [if_pos hb1, if_pos hb1]
    exact hbad
  rw [if_neg hb1, if_neg hb1]
  by_cases hb2 : results.any (·.type.isNil) = true
  · rw [if_pos hb2, if_pos hb2]
    exact hbad
  rw [if_neg hb2, if_neg hb2]
  by_cases hb3 : s.isVariadic = true
  · rw [if_pos hb3, if_pos hb3]
    rcases getLast_args h2 with ⟨h5, h6⟩ | ⟨n, t, v, h5, h6, h7⟩
    · rw [h5, h6]
      exact hbad
    · rw [h5, h6]
      cases t <;> cases v <;> simp only [Part.Type] at h7 <;> first | exact hok | exact hbad
  · rw [if_neg hb3, if_neg hb3]
    exact hok

theorem lift_ok_bind {α β : Type} (a : α) (f : α → IM β) : (IM.lift (.ok a) >>= f) = f a := rfl
theorem lift_panic_bind {α β : Type} (f : α → IM β) : (IM.lift .panic >>= f) = IM.panic := rfl

theorem sizeOf_arg {a : ArgType} {l : List ArgType} (h : a ∈ l) : sizeOf a.type < sizeOf l := by
  have := List.sizeOf_lt_of_mem h
  cases a
  simp at this ⊢
  omega
theorem sizeOf_field {a : FieldType} {l : List FieldType} (h : a ∈ l) : sizeOf a.type < sizeOf l := by
  have := List.sizeOf_lt_of_mem h
  cases a
  simp at this ⊢
  omega
theorem sizeOf_method {a : MethodType} {l : List MethodType} (h : a ∈ l) : sizeOf a.signature < sizeOf l := by
  have := List.sizeOf_lt_of_mem h
  cases a
  simp at this ⊢
  omega
theorem sizeOf_sig_args (s : Signature) : sizeOf s.args < sizeOf s := by
  cases s
  simp
  omega
theorem sizeOf_sig_results (s : Signature) : sizeOf s.results < sizeOf s := by
  cases s
  simp
  omega

theorem sim_qualifyTypeM (r : Bool) : ∀ (fuel : Nat) (t : TypeName), sizeOf t < fuel → TypeSim r (qualifyTypeM r fuel) t
  | 0, _, ht => absurd ht (Nat.not_lt_zero _)
  | fuel + 1, t, hf => by
    have ih := sim_qualifyTypeM r fuel
    intro v h m i a ht
    cases t with
    | nil =>
      cases v <;> simp only [Part.Type] at ht
      rw [qualifyType]
      exact .panic
    | basic k =>
      cases v <;> simp only [Part.Type] at ht
      subst ht
      rw [qualifyType]
      exact .pure a ⟨by rw [Part.Type], by simp⟩
    | named sym =>
      cases v <;> simp only [Part.Type] at ht
      rename_i p
      rw [qualifyType]
      refine .left (load_of_at a ht i) (.refl a) ?_
      refine (Sim.onImports (P := fun a b _ _ => a = b) a fun _ => rfl).bind ?_
      rintro nsym _ h' m' i' st rfl
      by_cases hn : nsym = sym
      · rw [if_neg (by simp [hn]), if_neg (by simp [hn])]
        exact .pure st.after ⟨by rw [Part.Type]; exact st.le.get ht, by simp⟩
      · rw [if_pos hn, if_pos hn]
        refine .left (alloc_apply _ _ _) (st.after.alloc _) (.pure (st.after.alloc (W := noAddr) _).after ⟨?_, ?_⟩)
        · rw [namedType, Part.Type]
          simp [Part.add]
        · have := Nat.lt_of_lt_of_le (a.lt _ _ ht) st.next
          simp
          omega
    | ptr t =>
      cases v <;> simp only [Part.Type] at ht
      rename_i v
      simp at hf
      rw [qualifyType]
      refine (ih t (by omega) v h m i a ht).bind ?_
      rintro ⟨t', c⟩ v' h' m' i' st ⟨h1, h2⟩
      dsimp only at h1 h2 ⊢
      have hn := type_nil h1
      cases c with
      | false =>
        have hv : v' = v := h2.2 rfl
        rw [if_neg (by simp [hv])]
        exact .pure st.after ⟨by rw [Part.Type]; exact ht.mono st.le _ _, by simp⟩
      | true =>
        have hv : v' ≠ v := by simpa using h2
        rw [if_pos hv, if_pos rfl, pointerType]
        by_cases hnil : v' = .nil
        · rw [if_pos hnil, if_pos (hn.1 hnil)]
          exact .panic
        · rw [if_neg hnil, if_neg (fun hh => hnil (hn.2 hh))]
          exact .pure st.after ⟨by rw [Part.Type]; exact h1, by simpa using hv⟩
    | slice t =>
      cases v <;> simp only [Part.Type] at ht
      rename_i v
      simp at hf
      rw [qualifyType]
      refine (ih t (by omega) v h m i a ht).bind ?_
      rintro ⟨t', c⟩ v' h' m' i' st ⟨h1, h2⟩
      dsimp only at h1 h2 ⊢
      have hn := type_nil h1
      cases c with
      | false =>
        have hv : v' = v := h2.2 rfl
        rw [if_neg (by simp [hv])]
        exact .pure st.after ⟨by rw [Part.Type]; exact ht.mono st.le _ _, by simp⟩
      | true =>
        have hv : v' ≠ v := by simpa using h2
        rw [if_pos hv, if_pos rfl, sliceType]
        by_cases hnil : v' = .nil
        · rw [if_pos hnil, if_pos (hn.1 hnil)]
          exact .panic
        · rw [if_neg hnil, if_neg (fun hh => hnil (hn.2 hh))]
          exact .pure st.after ⟨by rw [Part.Type]; exact h1, by simpa using hv⟩
    | array t n =>
      cases v <;> simp only [Part.Type] at ht
      rename_i v n'
      obtain ⟨rfl, ht⟩ := ht
      simp at hf
      rw [qualifyType]
      refine (ih t (by omega) v h m i a ht).bind ?_
      rintro ⟨t', c⟩ v' h' m' i' st ⟨h1, h2⟩
      dsimp only at h1 h2 ⊢
      have hn := type_nil h1
      cases c with
      | false =>
        have hv : v' = v := h2.2 rfl
        rw [if_neg (by simp [hv])]
        exact .pure st.after ⟨by rw [Part.Type]; exact ⟨rfl, ht.mono st.le _ _⟩, by simp⟩
      | true =>
        have hv : v' ≠ v := by simpa using h2
        rw [if_pos hv, if_pos rfl, arrayType]
        by_cases hnil : v' = .nil ∨ n' < 0
        · rw [if_pos hnil, if_pos (by simpa [hn] using hnil)]
          exact .panic
        · rw [if_neg hnil, if_neg (by simpa [hn] using hnil)]
          exact .pure st.after ⟨by rw [Part.Type]; exact ⟨rfl, h1⟩, by simpa using hv⟩
    | map t k =>
      cases v <;> simp only [Part.Type] at ht
      rename_i v w
      obtain ⟨ht, hk⟩ := ht
      simp at hf
      rw [qualifyType]
      refine (ih k (by omega) w h m i a hk).bind ?_
      rintro ⟨k', ck⟩ w' h' m' i' st ⟨h1, h2⟩
      refine (ih t (by omega) v h' m' i' st.after (ht.mono st.le _ _)).bind ?_
      rintro ⟨t', ce⟩ v' h'' m'' i'' st' ⟨h3, h4⟩
      dsimp only at h1 h2 h3 h4 ⊢
      replace h1 := h1.mono st'.le _ _
      have hn := type_nil h1
      have hn' := type_nil h3
      by_cases hc : v' ≠ v ∨ w' ≠ w
      · have hcc : (ce || ck) = true := by
          rcases hc with hc | hc
          · have : ce = true := by simpa [hc] using h4
            simp [this]
          · have : ck = true := by simpa [hc] using h2
            simp [this]
        rw [if_pos hc, if_pos hcc, mapType]
        by_cases hnil : w' = .nil ∨ v' = .nil
        · rw [if_pos hnil, if_pos (by simpa [hn, hn'] using hnil)]
          exact .panic
        · rw [if_neg hnil, if_neg (by simpa [hn, hn'] using hnil)]
          refine .pure st'.after ⟨by rw [Part.Type]; exact ⟨h3, h1⟩, ?_⟩
          simp only [MType.map.injEq, Bool.true_eq_false, iff_false]
          rintro ⟨rfl, rfl⟩
          simp at hc
      · have hcc : ¬(ce || ck) = true := by
          simp only [ne_eq, not_or, Decidable.not_not] at hc
          simp [h4.1 hc.1, h2.1 hc.2]
        rw [if_neg hc, if_neg hcc]
        exact .pure st'.after ⟨by
          rw [Part.Type]; exact ⟨ht.mono (st.le.trans st'.le) _ _, hk.mono (st.le.trans st'.le) _ _⟩, by simp⟩
    | chan t d =>
      cases v <;> simp only [Part.Type] at ht
      rename_i v d0
      obtain ⟨rfl, ht⟩ := ht
      simp at hf
      rw [qualifyType]
      refine (ih t (by omega) v h m i a ht).bind ?_
      rintro ⟨t', c⟩ v' h' m' i' st ⟨h1, h2⟩
      dsimp only at h1 h2 ⊢
      have hn := type_nil h1
      cases c with
      | false =>
        have hv : v' = v := h2.2 rfl
        rw [if_neg (by simp [hv])]
        exact .pure st.after ⟨by rw [Part.Type]; exact ⟨rfl, ht.mono st.le _ _⟩, by simp⟩
      | true =>
        have hv : v' ≠ v := by simpa using h2
        rw [if_pos hv, if_pos rfl, channelType]
        generalize (if d0 = 0 then bothDir else d0) = d'
        by_cases hnil : v' = .nil ∨ d' &&& ~~~bothDir ≠ 0
        · rw [if_pos hnil, if_pos (by simpa [hn] using hnil)]
          exact .panic
        · rw [if_neg hnil, if_neg (by simpa [hn] using hnil)]
          refine .pure st.after ⟨by rw [Part.Type]; exact ⟨rfl, h1⟩, ?_⟩
          simp [hv]
    | func sig =>
      cases v <;> simp only [Part.Type] at ht
      rename_i p
      obtain ⟨s, hp, hs⟩ := ht
      simp at hf
      have e1 := sizeOf_sig_args sig
      have e2 := sizeOf_sig_results sig
      rw [qualifyType]
      refine (sim_qualifySignatureM (fun x hx => ih _ (by have := sizeOf_arg hx; omega))
        (fun x hx => ih _ (by have := sizeOf_arg hx; omega)) a (a.le.get hp) (a.lt _ _ hp) hs).bind ?_
      rintro ⟨sig', c⟩ np h' m' i' st hc
      dsimp only at hc ⊢
      rcases hc with ⟨rfl, rfl, h1⟩ | ⟨h1, rfl, s', h2, h3⟩
      · rw [if_neg (by simp)]
        refine .pure st.after ⟨?_, by simp⟩
        rw [Part.Type]
        exact ⟨s, st.le.get hp, hs.mono st.le _ _⟩
      · rw [if_pos h1, if_pos rfl]
        refine (sim_funcTypeFromSigM st.after h2 h3).right ?_
        rintro t v h'' m'' - ⟨rfl, h4⟩
        exact ⟨h4, by simp [h1]⟩
    | struct fields =>
      cases v <;> simp only [Part.Type] at ht
      rename_i p
      obtain ⟨s, E, hp, hl, hE⟩ := ht
      simp at hf
      rw [qualifyType]
      refine .left (load_of_at a hp i) (.refl a) ?_
      have sa : MStep noAddr h m (h.add m.next (.array E)) (m.after (.array E)) := a.alloc _
      refine .left (copySlice_of_at a hl i) sa ?_
      refine (sim_qualifyFieldsM (fun x hx => ih _ (by have := sizeOf_field hx; omega)) sa.after
        (elems_whole h m.next E) (hE.mono sa.le _ _)).bind ?_
      rintro ⟨nfields, c⟩ s' h' m' i' st ⟨Y, h1, h2, h3⟩
      dsimp only at h2 h3 ⊢
      cases c with
      | false =>
        rw [if_neg (by simp [h3])]
        refine .pure st.after ⟨?_, by simp⟩
        rw [Part.Type]
        have le := sa.le.trans st.le
        exact ⟨s, E, le.get hp, Part.elems_mono le hl, hE.mono le _ _⟩
      | true =>
        rw [if_pos (by simp [h3])]
        have sb : MStep noAddr h' m' (h'.add m'.next (.struct s')) (m'.after (.struct s')) := st.after.alloc _
        refine .left (alloc_apply _ _ _) sb (.pure sb.after ⟨?_, ?_⟩)
        · rw [structType, Part.Type]
          exact ⟨s', Y, by simp [Part.add], Part.elems_mono sb.le h1, h2.mono sb.le _ _⟩
        · have := Nat.lt_of_lt_of_le (a.lt _ _ hp) (Nat.le_trans sa.next st.next)
          simp
          omega
    | interface methods embeds =>
      cases v <;> simp only [Part.Type] at ht
      rename_i p
      obtain ⟨ms, es, E, E', hp, hl, hE, hl', hE'⟩ := ht
      simp at hf
      rw [qualifyType]
      refine .left (load_of_at a hp i) (.refl a) ?_
      have sa : MStep noAddr h m (h.add m.next (.array E')) (m.after (.array E')) := a.alloc _
      refine .left (copySlice_of_at a hl' i) sa ?_
      refine (sim_qualifySymbolsM sa.after (elems_whole h m.next E') hE').bind ?_
      rintro ⟨nembeds, ce⟩ s1 h1 m1 i1 st ⟨Y', g1, g2, g3⟩
      have sc : MStep noAddr h1 m1 (h1.add m1.next (.array E)) (m1.after (.array E)) := st.after.alloc _
      have le1 := sa.le.trans st.le
      refine .left (copySlice_of_at st.after (Part.elems_mono le1 hl) i1) sc ?_
      refine (sim_qualifyMethodsM
        (fun x hx y hy => ih _ (by
          have := sizeOf_method hx
          have := sizeOf_sig_args x.signature
          have := sizeOf_arg hy
          omega))
        (fun x hx y hy => ih _ (by
          have := sizeOf_method hx
          have := sizeOf_sig_results x.signature
          have := sizeOf_arg hy
          omega)) sc.after (elems_whole h1 m1.next E) (hE.mono (le1.trans sc.le) _ _)).bind ?_
      rintro ⟨nmethods, cm⟩ s2 h2 m2 i2 st2 ⟨Y, k1, k2, k3⟩
      dsimp only at g2 g3 k2 k3 ⊢
      have le2 := sc.le.trans st2.le
      by_cases hc : (ce || cm) = true
      · rw [if_pos (by cases ce <;> cases cm <;> simp_all), if_pos hc]
        have sb : MStep noAddr h2 m2 (h2.add m2.next (.interface s2 s1)) (m2.after (.interface s2 s1)) :=
          st2.after.alloc _
        refine .left (alloc_apply _ _ _) sb (.pure sb.after ⟨?_, ?_⟩)
        · rw [interfaceType, Part.Type]
          exact ⟨s2, s1, Y, Y', by simp [Part.add], Part.elems_mono sb.le k1, k2.mono sb.le _ _,
            Part.elems_mono (le2.trans sb.le) g1, g2⟩
        · have := Nat.lt_of_lt_of_le (a.lt _ _ hp) (Nat.le_trans sa.next (Nat.le_trans st.next
            (Nat.le_trans sc.next st2.next)))
          simp
          omega
      · rw [if_neg (by cases ce <;> cases cm <;> simp_all), if_neg hc]
        refine .pure st2.after ⟨?_, by simp⟩
        rw [Part.Type]
        have le := le1.trans le2
        exact ⟨ms, es, E, E', le.get hp, Part.elems_mono le hl, hE.mono le _ _, Part.elems_mono le hl', hE'⟩

end Gopoet
