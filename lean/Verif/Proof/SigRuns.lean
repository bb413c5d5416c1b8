import Verif.Proof.SigTypes
/-!
# What programs do to memory that stands for values
-/

namespace Gopoet
open MM Imports

section
variable {h : Part} {ids : Nat → Option ListIds} {p p' : SigPlan} {m : Mem} {i : Imports} {v : SigVals} {r : SigRefs}

/-- Fuel that is enough for the command. -/
def SigCmd.enough (v : SigVals) : SigCmd → Nat → Prop
  | .qualify o, fuel => ∀ sig, v.sigs[o]? = some sig → sizeOf sig < fuel
  | .ensureType t, fuel => ∀ ty, v.types[t]? = some ty → sizeOf ty < fuel
  | _, _ => True

theorem SigCmd.exists_enough (v : SigVals) (c : SigCmd) : ∃ n, ∀ fuel, n ≤ fuel → c.enough v fuel := by
  cases c with
  | qualify o =>
    cases hv : v.sigs[o]? with
    | none => exact ⟨0, fun fuel _ sig hs => by rw [hv] at hs; cases hs⟩
    | some s =>
      refine ⟨sizeOf s + 1, fun fuel hf sig hs => ?_⟩
      rw [hv] at hs
      cases hs
      omega
  | ensureType t =>
    cases hv : v.types[t]? with
    | none => exact ⟨0, fun fuel _ sig hs => by rw [hv] at hs; cases hs⟩
    | some s =>
      refine ⟨sizeOf s + 1, fun fuel hf sig hs => ?_⟩
      rw [hv] at hs
      cases hs
      omega
  | _ => exact ⟨0, fun _ _ => trivial⟩

/-- A command that is allowed does in memory what it does with values. -/
theorem follows_exec (st : Stands m h ids p v r) (hp : 0 < p.next) (g : Growth) (fuel : Nat)
    (c : SigCmd) (hs : p.step c = some p') (hf : c.enough v fuel) : Keeps p' (c.execM g fuel r) (c.execV v) i m := by
  cases c with
  | new =>
    cases hs
    exact follows_new st hp g fuel
  | addArg o name t =>
    rw [SigPlan.step] at hs
    split at hs
    · cases hs
    · rename_i hc
      rw [Bool.or_eq_true, not_or, Bool.not_eq_true, Bool.not_eq_true, Bool.not_eq_false'] at hc
      cases hs
      exact follows_addArg st g fuel o name t hc.1 hc.2
  | addResult o name t =>
    rw [SigPlan.step] at hs
    split at hs
    · cases hs
    · rename_i hc
      rw [Bool.or_eq_true, not_or, Bool.not_eq_true, Bool.not_eq_true, Bool.not_eq_false'] at hc
      cases hs
      exact follows_addResult st g fuel o name t hc.1 hc.2
  | setVariadic o b =>
    rw [SigPlan.step] at hs
    split at hs
    · cases hs
    · rename_i hc
      cases hs
      exact follows_setVariadic st g fuel o b (Bool.not_eq_true _ ▸ hc)
  | qualify o =>
    rw [SigPlan.step] at hs
    split at hs
    · cases hs
    · rename_i hc
      cases hs
      exact follows_qualify st g fuel o (Bool.not_eq_true _ ▸ hc) hf
  | nilType =>
    cases hs
    exact .pure (st.addType (by simp [Part.Type]) nofun)
  | basicType k =>
    cases hs
    exact follows_basicType st g fuel k
  | namedType s =>
    cases hs
    exact follows_namedType st g fuel s
  | pointerType t =>
    cases hs
    exact follows_pointerType st g fuel t
  | sliceType t =>
    cases hs
    exact follows_sliceType st g fuel t
  | arrayType t n =>
    cases hs
    exact follows_arrayType st g fuel t n
  | mapType k e =>
    cases hs
    exact follows_mapType st g fuel k e
  | channelType t d =>
    cases hs
    exact follows_channelType st g fuel t d
  | structType fs =>
    cases hs
    exact follows_structType st g fuel fs
  | interfaceType ms es =>
    cases hs
    exact follows_interfaceType st g fuel ms es
  | ensureType t =>
    cases hs
    exact follows_ensureType st g fuel t hf
  | funcType o =>
    cases hs
    exact follows_funcType st g fuel o
  | methodType o recv pkg =>
    cases hs
    exact follows_methodType st hp g fuel o recv pkg
  | interfaceMethodType o t =>
    cases hs
    exact follows_interfaceMethodType st hp g fuel o t
  | copy o =>
    cases hs
    exact follows_copy st g fuel o
  | sigOf t =>
    cases hs
    exact follows_sigOf st g fuel t

theorem SigPlan.step_next {c : SigCmd} (hs : p.step c = some p') : p.next ≤ p'.next := by
  cases c <;> simp only [SigPlan.step] at hs
  case addArg | addResult | setVariadic | qualify =>
    split at hs
    · cases hs
    · cases hs
      simp
  all_goals
    cases hs
    simp [SigPlan.addSig, SigPlan.addType]

/-- Types stay as they are. -/
theorem execV_grows (c : SigCmd) {v' : SigVals} {j : Imports} (hy : c.execV v i = (.ok v', j)) :
    ∃ l, v'.types = v.types ++ l := by
  cases c with
  | new =>
    cases hy
    exact ⟨[], by simp [SigVals.addSig]⟩
  | copy o =>
    obtain ⟨s, i1, h1, h2⟩ := IM.bind_eq_ok hy
    cases h2
    exact ⟨[], by simp [SigVals.addSig]⟩
  | sigOf t =>
    obtain ⟨s, i1, h1, h2⟩ := IM.bind_eq_ok hy
    split at h2
    · cases h2
      exact ⟨[], by simp [SigVals.addSig]⟩
    · cases h2
  | addArg o name t =>
    obtain ⟨s, i1, h1, h2⟩ := IM.bind_eq_ok hy
    obtain ⟨t, i1, h1, h2⟩ := IM.bind_eq_ok h2
    cases h2
    exact ⟨[], by simp [SigVals.setSig]⟩
  | addResult o name t =>
    obtain ⟨s, i1, h1, h2⟩ := IM.bind_eq_ok hy
    obtain ⟨t, i1, h1, h2⟩ := IM.bind_eq_ok h2
    cases h2
    exact ⟨[], by simp [SigVals.setSig]⟩
  | setVariadic o b =>
    obtain ⟨s, i1, h1, h2⟩ := IM.bind_eq_ok hy
    cases h2
    exact ⟨[], by simp [SigVals.setSig]⟩
  | qualify o =>
    obtain ⟨s, i1, h1, h2⟩ := IM.bind_eq_ok hy
    obtain ⟨t, i1, h1, h2⟩ := IM.bind_eq_ok h2
    cases h2
    exact ⟨[], by simp [SigVals.setSig]⟩
  | nilType =>
    cases hy
    exact ⟨_, rfl⟩
  | namedType s =>
    cases hy
    exact ⟨_, rfl⟩
  | basicType k =>
    obtain ⟨s, i1, h1, h2⟩ := IM.bind_eq_ok hy
    cases h2
    exact ⟨_, rfl⟩
  | structType fs =>
    obtain ⟨s, i1, h1, h2⟩ := IM.bind_eq_ok hy
    cases h2
    exact ⟨_, rfl⟩
  | interfaceType ms es =>
    obtain ⟨s, i1, h1, h2⟩ := IM.bind_eq_ok hy
    cases h2
    exact ⟨_, rfl⟩
  | pointerType t =>
    obtain ⟨s, i1, h1, h2⟩ := IM.bind_eq_ok hy
    obtain ⟨t, i1, h1, h2⟩ := IM.bind_eq_ok h2
    cases h2
    exact ⟨_, rfl⟩
  | sliceType t =>
    obtain ⟨s, i1, h1, h2⟩ := IM.bind_eq_ok hy
    obtain ⟨t, i1, h1, h2⟩ := IM.bind_eq_ok h2
    cases h2
    exact ⟨_, rfl⟩
  | arrayType t n =>
    obtain ⟨s, i1, h1, h2⟩ := IM.bind_eq_ok hy
    obtain ⟨t, i1, h1, h2⟩ := IM.bind_eq_ok h2
    cases h2
    exact ⟨_, rfl⟩
  | mapType k e =>
    obtain ⟨s, i1, h1, h2⟩ := IM.bind_eq_ok hy
    obtain ⟨t, i1, h1, h2⟩ := IM.bind_eq_ok h2
    obtain ⟨t, i1, h1, h2⟩ := IM.bind_eq_ok h2
    cases h2
    exact ⟨_, rfl⟩
  | channelType t d =>
    obtain ⟨s, i1, h1, h2⟩ := IM.bind_eq_ok hy
    obtain ⟨t, i1, h1, h2⟩ := IM.bind_eq_ok h2
    cases h2
    exact ⟨_, rfl⟩
  | ensureType t =>
    obtain ⟨s, i1, h1, h2⟩ := IM.bind_eq_ok hy
    obtain ⟨t, i1, h1, h2⟩ := IM.bind_eq_ok h2
    cases h2
    exact ⟨_, rfl⟩
  | funcType o =>
    obtain ⟨s, i1, h1, h2⟩ := IM.bind_eq_ok hy
    obtain ⟨t, i2, h3, h2⟩ := IM.bind_eq_ok h2
    cases h2
    exact ⟨_, rfl⟩
  | methodType o recv pkg =>
    obtain ⟨s, i1, h1, h2⟩ := IM.bind_eq_ok hy
    cases pkg with
    | none => cases h2
    | some pkg =>
      obtain ⟨t, i2, h3, h2⟩ := IM.bind_eq_ok h2
      cases h2
      exact ⟨_, rfl⟩
  | interfaceMethodType o t =>
    obtain ⟨s, i1, h1, h2⟩ := IM.bind_eq_ok hy
    obtain ⟨t, i1, h1, h2⟩ := IM.bind_eq_ok h2
    obtain ⟨t, i1, h1, h2⟩ := IM.bind_eq_ok h2
    cases h2
    exact ⟨_, rfl⟩

/-- A program keeps types. -/
theorem runSigV_grows : ∀ (cmds : List SigCmd) (v : SigVals) (i : Imports) {v' : SigVals} {j : Imports},
    runSigV v cmds i = (.ok v', j) → ∃ l, v'.types = v.types ++ l
  | [], v, i, v', j, hy => by
    cases hy
    exact ⟨[], by simp⟩
  | c :: cs, v, i, v', j, hy => by
    obtain ⟨v1, i1, h1, h2⟩ := IM.bind_eq_ok hy
    obtain ⟨l, hl⟩ := execV_grows c h1
    obtain ⟨l', hl'⟩ := runSigV_grows cs v1 i1 h2
    exact ⟨l ++ l', by rw [hl', hl, List.append_assoc]⟩

/-- A program that is allowed does in memory what it does with values. -/
theorem follows_run : ∀ (cmds : List SigCmd) (v : SigVals) (i : Imports), ∃ n, ∀ fuel, n ≤ fuel →
    ∀ (g : Growth) (r : SigRefs) (m : Mem) (h : Part) (ids : Nat → Option ListIds) (p p' : SigPlan),
    Stands m h ids p v r → 0 < p.next → p.run cmds = some p' →
    Keeps p' (runSigM g fuel r cmds) (runSigV v cmds) i m
  | [], v, i => ⟨0, fun _ _ _ _ _ _ _ _ _ st _ hp => by
      cases hp
      exact .pure st⟩
  | c :: cs, v, i => by
    obtain ⟨n0, hn0⟩ := c.exists_enough v
    have rest : ∃ n1, ∀ v1 i1, c.execV v i = (.ok v1, i1) → ∀ fuel, n1 ≤ fuel →
        ∀ (g : Growth) (r : SigRefs) (m : Mem) (h : Part) (ids : Nat → Option ListIds) (p p' : SigPlan),
        Stands m h ids p v1 r → 0 < p.next → p.run cs = some p' →
        Keeps p' (runSigM g fuel r cs) (runSigV v1 cs) i1 m := by
      rcases hy : c.execV v i with ⟨v1 | _ | _, i1⟩
      · obtain ⟨n1, hn1⟩ := follows_run cs v1 i1
        refine ⟨n1, fun v2 i2 he => ?_⟩
        cases he
        exact hn1
      · exact ⟨0, nofun⟩
      · exact ⟨0, nofun⟩
    obtain ⟨n1, hn1⟩ := rest
    refine ⟨max n0 n1, fun fuel hf g r m h ids p p' st hp hd => ?_⟩
    rw [SigPlan.run] at hd
    obtain ⟨p1, hp1, hp2⟩ := Option.bind_eq_some_iff.1 hd
    have fl : Keeps p1 (c.execM g fuel r) (c.execV v) i m := follows_exec st hp g fuel c hp1 (hn0 fuel (by omega))
    unfold Keeps at fl ⊢
    rw [runSigV, runSigM, IM.bind_apply, MM.bind_apply]
    rcases hy : c.execV v i with ⟨v1 | _ | _, i1⟩
    · rw [hy] at fl
      obtain ⟨r1, h1, ids1, m1, e, st1⟩ := fl
      have fl2 := hn1 v1 i1 hy fuel (by omega) g r1 m1 h1 ids1 p1 p' st1
        (Nat.lt_of_lt_of_le hp (SigPlan.step_next hp1)) hp2
      unfold Keeps at fl2
      rw [e]
      exact fl2
    · rw [hy] at fl
      obtain ⟨m', e⟩ := fl
      exact ⟨m', by rw [e]⟩
    · rw [hy] at fl
      obtain ⟨m', e⟩ := fl
      exact ⟨m', by rw [e]⟩

/-- Memory that stands for values holds them. -/
theorem Stands.are (st : Stands m h ids p v r) : r.Are m v := by
  refine ⟨st.len, st.typesLen.1.symm, fun k a s ha hs => ?_, fun k w t hw ht => ?_⟩
  · obtain ⟨sig, x, f, s', h1, -, -, -, -, h2, h3, -⟩ := st.at_obj ha
    rw [hs] at h1
    cases h1
    exact ⟨s', h2, h3.mono st.inPart.le _ _⟩
  · exact Part.Type.mono st.inPart.le _ _ (st.types k t w ht hw)

theorem stands_empty : Stands Mem.empty (fun _ => none) (fun _ => none) {} {} {} :=
  ⟨⟨nofun, nofun⟩, rfl, rfl, nofun, nofun, nofun, nofun, ⟨rfl, rfl⟩, nofun, nofun, nofun⟩

/-! ## Programs that are easily seen to be allowed -/

/-- The lists of signatures are different and nothing was added to them, except for empty ones; only signatures in
the list have memory that types have. -/
structure SigPlan.Plain (shared : List Nat) (p : SigPlan) : Prop where
  shared : ∀ k, (p.sig k).2 = true → k ∈ shared
  free : ∀ k b, p.free ((p.sig k).1.slot b) = true
  lt : ∀ k b, (p.sig k).1.slot b < p.next
  differ : ∀ k k' b b', (p.sig k).1.slot b = (p.sig k').1.slot b' → (p.sig k).1.slot b = 0 ∨ k = k' ∧ b = b'
  used : ∀ n ∈ p.used, n < p.next

theorem SigPlan.free_iff {n : Nat} : p.free n = true ↔ n = 0 ∨ n ∉ p.used := by
  simp [SigPlan.free]

/-- A list is replaced by one that something was added to. -/
theorem SigPlan.Plain.grow {shared : List Nat} (q : p.Plain shared) (o : Nat) (b : Bool) (x : ListIds)
    (hx : x.slot b = p.next) (hx' : x.slot (!b) = (p.sig o).1.slot (!b)) :
    SigPlan.Plain shared { p with
      sigs := p.sigs.set o (x, false), used := (p.sig o).1.slot b :: p.used, next := p.next + 1 } := by
  have get : ∀ k, ((p.sigs.set o (x, false)).getD k ({}, false) = p.sig k ∧ (k ≠ o ∨ (p.sig k).1 = {})) ∨
      k = o ∧ (p.sigs.set o (x, false)).getD k ({}, false) = (x, false) := by
    intro k
    rw [List.getD_eq_getElem?_getD, List.getElem?_set]
    by_cases hk : o = k
    · subst hk
      rw [if_pos rfl]
      split
      · exact .inr ⟨rfl, rfl⟩
      · rename_i hl
        have : p.sig o = ({}, false) := by
          rw [SigPlan.sig, List.getD_eq_getElem?_getD, List.getElem?_eq_none (by omega)]
          rfl
        rw [this]
        exact .inl ⟨rfl, .inr rfl⟩
    · rw [if_neg hk]
      exact .inl ⟨by rw [SigPlan.sig, List.getD_eq_getElem?_getD], .inl fun e => hk e.symm⟩
  have zero : ∀ c, ({} : ListIds).slot c = 0 := by
    intro c
    cases c <;> rfl
  have slot : ∀ c, x.slot c = p.next ∧ c = b ∨ x.slot c = (p.sig o).1.slot c ∧ c ≠ b := by
    intro c
    by_cases hc : c = b
    · subst hc
      exact .inl ⟨hx, rfl⟩
    · have : c = !b := by cases c <;> cases b <;> simp_all
      subst this
      exact .inr ⟨hx', hc⟩
  have ne : ∀ c n, n = p.next → n ≠ (p.sig o).1.slot c := by
    intro c n hn
    have := q.lt o c
    omega
  refine ⟨fun k hk => ?_, fun k c => ?_, fun k c => ?_, fun k k' c c' he => ?_, fun n hn => ?_⟩
  · unfold SigPlan.sig at hk
    rcases get k with ⟨h1, -⟩ | ⟨rfl, h1⟩
    · rw [h1] at hk
      exact q.shared k hk
    · rw [h1] at hk
      cases hk
  · rw [SigPlan.free_iff]
    unfold SigPlan.sig
    have main : ∀ k, k ≠ o ∨ c ≠ b → (p.sig k).1.slot c = 0 ∨ (p.sig k).1.slot c ∉ (p.sig o).1.slot b :: p.used := by
      intro k hk
      rcases SigPlan.free_iff.1 (q.free k c) with h2 | h2
      · exact .inl h2
      · by_cases he : (p.sig k).1.slot c = (p.sig o).1.slot b
        · rcases q.differ _ _ _ _ he with h3 | h3
          · exact .inl h3
          · rcases hk with hk | hk
            · exact absurd h3.1 hk
            · exact absurd h3.2 hk
        · exact .inr fun h => (List.mem_cons.1 h).elim he h2
    rcases get k with ⟨h1, h2⟩ | ⟨rfl, h1⟩
    · rw [h1]
      rcases h2 with h2 | h2
      · exact main k (.inl h2)
      · exact .inl (by rw [h2, zero])
    · rw [h1]
      rcases slot c with ⟨h2, rfl⟩ | ⟨h2, h3⟩
      · refine .inr fun h => ?_
        rcases List.mem_cons.1 h with h | h
        · exact ne _ _ h2 h
        · have := q.used _ h
          dsimp only at this
          omega
      · dsimp only
        rw [h2]
        exact main k (.inr h3)
  · unfold SigPlan.sig
    rcases get k with ⟨h1, -⟩ | ⟨rfl, h1⟩
    · rw [h1]
      exact Nat.lt_succ_of_lt (q.lt k c)
    · rw [h1]
      rcases slot c with ⟨h2, -⟩ | ⟨h2, -⟩
      · dsimp only
        omega
      · dsimp only
        rw [h2]
        exact Nat.lt_succ_of_lt (q.lt k c)
  · unfold SigPlan.sig at he ⊢
    have old := q.lt
    rcases get k with ⟨h1, h2⟩ | ⟨rfl, h1⟩ <;> rcases get k' with ⟨h1', h2'⟩ | ⟨rfl, h1'⟩ <;>
      dsimp only at he ⊢ <;> rw [h1] at he ⊢ <;> (try rw [h1'] at he)
    · exact q.differ _ _ _ _ he
    · dsimp only at he
      rcases slot c' with ⟨h3, rfl⟩ | ⟨h3, -⟩
      · have := q.lt k c
        omega
      · rw [h3] at he
        exact q.differ _ _ _ _ he
    · dsimp only at he ⊢
      rcases slot c with ⟨h3, rfl⟩ | ⟨h3, -⟩
      · have := q.lt k' c'
        omega
      · rw [h3] at he ⊢
        exact q.differ _ _ _ _ he
    · dsimp only at he ⊢
      rcases slot c with ⟨h3, rfl⟩ | ⟨h3, h4⟩ <;> rcases slot c' with ⟨h3', rfl⟩ | ⟨h3', h4'⟩
      · exact .inr ⟨rfl, rfl⟩
      · have := q.lt k' c'
        omega
      · have := q.lt k' c
        omega
      · rw [h3, h3'] at he
        rw [h3]
        exact q.differ _ _ _ _ he
  · rcases List.mem_cons.1 hn with rfl | hn
    · exact Nat.lt_succ_of_lt (q.lt o b)
    · exact Nat.lt_succ_of_lt (q.used n hn)

theorem SigPlan.Plain.same {shared shared' : List Nat} (q : p.Plain shared) (hs : ∀ k, (p'.sig k).1 = (p.sig k).1)
    (hk : ∀ k, (p'.sig k).2 = true → (p.sig k).2 = true ∨ k ∈ shared') (hu : p'.used = p.used) (hn : p.next ≤ p'.next) :
    p'.Plain (shared' ++ shared) := by
  refine ⟨fun k h => ?_, fun k b => ?_, fun k b => ?_, fun k k' b b' he => ?_, fun n h => ?_⟩
  · rcases hk k h with h | h
    · exact List.mem_append_right _ (q.shared k h)
    · exact List.mem_append_left _ h
  · rw [SigPlan.free_iff, hs, hu]
    exact SigPlan.free_iff.1 (q.free k b)
  · rw [hs]
    exact Nat.lt_of_lt_of_le (q.lt k b) hn
  · rw [hs, hs] at he
    rw [hs]
    exact q.differ _ _ _ _ he
  · exact Nat.lt_of_lt_of_le (q.used n (hu ▸ h)) hn

theorem SigPlan.Plain.step {shared : List Nat} (q : p.Plain shared) {c : SigCmd} (hc : c.plain = true)
    (ho : ∀ o, c.changes = some o → o ∉ shared) : ∃ p', p.step c = some p' ∧ p'.Plain (c.shares ++ shared) := by
  have own : ∀ o, o ∉ shared → (p.sig o).2 = false := fun o h => by
    cases e : (p.sig o).2 with
    | false => rfl
    | true => exact absurd (q.shared o e) h
  cases c with
  | copy => cases hc
  | sigOf => cases hc
  | addArg o name t =>
    rw [SigPlan.step, own o (ho o rfl), show p.free (p.sig o).1.args = true from q.free o false]
    exact ⟨_, rfl, q.grow o false ⟨p.next, (p.sig o).1.results⟩ rfl rfl⟩
  | addResult o name t =>
    rw [SigPlan.step, own o (ho o rfl), show p.free (p.sig o).1.results = true from q.free o true]
    exact ⟨_, rfl, q.grow o true ⟨(p.sig o).1.args, p.next⟩ rfl rfl⟩
  | setVariadic o b =>
    rw [SigPlan.step, own o (ho o rfl)]
    exact ⟨_, rfl, q⟩
  | qualify o =>
    rw [SigPlan.step, own o (ho o rfl)]
    exact ⟨_, rfl, q⟩
  | new =>
    have get : ∀ k, (p.addSig ({}, false)).sig k = p.sig k := by
      intro k
      unfold SigPlan.sig SigPlan.addSig
      rw [List.getD_eq_getElem?_getD, List.getD_eq_getElem?_getD, List.getElem?_append]
      split
      · rfl
      · rename_i hl
        rw [List.getElem?_eq_none (by omega : p.sigs.length ≤ k)]
        generalize k - p.sigs.length = n
        cases n <;> rfl
    exact ⟨_, rfl, q.same (fun k => by rw [get]) (fun k h => .inl (by rwa [get] at h)) rfl (Nat.le_refl _)⟩
  | funcType o =>
    have get : ∀ k, ((p.sigs.set o ((p.sig o).1, true)).getD k ({}, false)).1 = (p.sig k).1 ∧
        (((p.sigs.set o ((p.sig o).1, true)).getD k ({}, false)).2 = true → (p.sig k).2 = true ∨ k ∈ [o]) := by
      intro k
      rw [List.getD_eq_getElem?_getD, List.getElem?_set]
      by_cases hk : o = k
      · subst hk
        rw [if_pos rfl]
        split
        · exact ⟨rfl, fun _ => .inr List.mem_cons_self⟩
        · rename_i hl
          have : p.sig o = ({}, false) := by
            rw [SigPlan.sig, List.getD_eq_getElem?_getD, List.getElem?_eq_none (by omega)]
            rfl
          rw [this]
          exact ⟨rfl, nofun⟩
      · rw [if_neg hk]
        rw [SigPlan.sig, List.getD_eq_getElem?_getD]
        exact ⟨rfl, .inl⟩
    exact ⟨_, rfl, q.same (fun k => (get k).1) (fun k h => (get k).2 h) rfl (Nat.le_refl _)⟩
  | methodType => exact ⟨_, rfl, q.same (fun _ => rfl) (fun _ h => .inl h) rfl (Nat.le_add_right _ _)⟩
  | interfaceMethodType => exact ⟨_, rfl, q.same (fun _ => rfl) (fun _ h => .inl h) rfl (Nat.le_add_right _ _)⟩
  | _ => exact ⟨_, rfl, q.same (fun _ => rfl) (fun _ h => .inl h) rfl (Nat.le_refl _)⟩

theorem plain_run : ∀ (cmds : List SigCmd) {shared : List Nat} {p : SigPlan}, p.Plain shared →
    disciplined shared cmds = true → ∃ p', p.run cmds = some p'
  | [], _, _, _, _ => ⟨_, rfl⟩
  | c :: cs, shared, p, q, hd => by
    rw [disciplined, Bool.and_eq_true, Bool.and_eq_true] at hd
    obtain ⟨p1, h1, q1⟩ := q.step hd.1.1 fun o ho => by
      have h := hd.1.2
      rw [ho] at h
      simpa using h
    obtain ⟨p2, h2⟩ := plain_run cs q1 hd.2
    exact ⟨p2, by rw [SigPlan.run, h1]; exact h2⟩

end

/-- Programs that make no copies, do not ask types for signatures and do not change signatures that they made types of
are allowed. -/
theorem orderly_of_disciplined (cmds : List SigCmd) (h : disciplined [] cmds = true) : orderly cmds = true := by
  obtain ⟨p, hp⟩ := plain_run cmds (p := {}) ⟨nofun, fun _ b => by cases b <;> rfl, fun _ b => by cases b <;> exact Nat.one_pos,
    fun _ _ b _ _ => .inl (by cases b <;> rfl), nofun⟩ h
  rw [orderly, hp]
  rfl

end Gopoet
