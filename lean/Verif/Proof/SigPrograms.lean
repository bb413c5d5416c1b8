import Verif.Proof.SigMemory
import Verif.Proof.MemoryFlag
/-!
# What each command does to memory that stands for values
-/

namespace Gopoet
open MM Imports

/-- `x` does in memory what `y` does with values; `p` is what is known of the memory afterwards. -/
def Keeps (p : SigPlan) (x : MM SigRefs) (y : IM SigVals) (i : Imports) (m : Mem) : Prop :=
  match y i with
  | (.ok v, j) => ∃ r h' ids' m', x m i = (.ok r, m', j) ∧ Stands m' h' ids' p v r
  | (.panic, j) => ∃ m', x m i = (.panic, m', j)
  | (.hang, j) => ∃ m', x m i = (.hang, m', j)

section
variable {α β : Type} {h : Part} {ids : Nat → Option ListIds} {p p' : SigPlan} {m : Mem} {i : Imports} {v : SigVals}
  {r : SigRefs}

theorem Keeps.bind {x : MM β} {y : IM α} {f : β → MM SigRefs} {g : α → IM SigVals}
    {P : α → β → Part → Mem → Prop} (hx : Sim noAddr x y i h m P)
    (hf : ∀ a b h' m' i', MStep noAddr h m h' m' → P a b h' m' → Keeps p (f b) (g a) i' m') :
    Keeps p (x >>= f) (y >>= g) i m := by
  unfold Sim at hx
  unfold Keeps
  rw [IM.bind_apply, MM.bind_apply]
  rcases hy : y i with ⟨a | _ | _, i'⟩
  · rw [hy] at hx
    obtain ⟨b, h', m', e, s, hp⟩ := hx
    have := hf a b h' m' i' s hp
    unfold Keeps at this
    rw [e]
    exact this
  · rw [hy] at hx
    obtain ⟨m', e⟩ := hx
    exact ⟨m', by rw [e]⟩
  · rw [hy] at hx
    obtain ⟨m', e⟩ := hx
    exact ⟨m', by rw [e]⟩

/-- Something that happens only in memory. -/
theorem Keeps.left {x : MM β} {b : β} {m' : Mem} {f : β → MM SigRefs} {y : IM SigVals}
    (hx : x m i = (.ok b, m', i)) (hf : Keeps p (f b) y i m') : Keeps p (x >>= f) y i m := by
  unfold Keeps at hf ⊢
  rw [MM.bind_apply, hx]
  exact hf

theorem Keeps.pure (st : Stands m h ids p v r) : Keeps p (pure r) (pure v) i m := ⟨r, h, ids, m, rfl, st⟩

theorem getElem?_append_one {α : Type} {l : List α} {x y : α} {k : Nat} (hk : (l ++ [x])[k]? = some y) :
    l[k]? = some y ∨ k = l.length ∧ y = x := by
  by_cases h : k < l.length
  · rw [List.getElem?_append_left h] at hk
    exact .inl hk
  · rw [List.getElem?_append_right (by omega)] at hk
    rcases hn : k - l.length with _ | n
    · rw [hn] at hk
      cases hk
      exact .inr ⟨by omega, rfl⟩
    · rw [hn] at hk
      cases hk

theorem Stands.addType (st : Stands m h ids p v r) {t : TypeName} {w : MType} {x : ListIds} (ht : h.Type t w)
    (hx : ∀ q, w = .func q → ids q = some x) :
    Stands m h ids (p.addType x) (v.addType t) (r.addType w) := by
  refine ⟨st.inPart, st.len, st.planLen, st.inj, st.obj, fun a x ha => ?_, st.apart,
    by simp [SigVals.addType, SigRefs.addType, SigPlan.addType, st.typesLen.1, st.typesLen.2], ?_, ?_, st.used⟩
  · obtain ⟨h1, s, h2, h3⟩ := st.held a x ha
    exact ⟨h1, s, h2, fun b => ⟨(h3 b).elems, (h3 b).zero, (h3 b).lt, (h3 b).ends⟩⟩
  · intro k t' w' ht' hw'
    rcases getElem?_append_one ht' with h1 | ⟨h1, rfl⟩ <;> rcases getElem?_append_one hw' with h2 | ⟨h2, rfl⟩
    · exact st.types k t' w' h1 h2
    · have := (List.getElem?_eq_some_iff.1 h1).1
      have := st.typesLen.1
      omega
    · have := (List.getElem?_eq_some_iff.1 h2).1
      have := st.typesLen.1
      omega
    · exact ht
  · intro k q x' hw' hx'
    rcases getElem?_append_one hw' with h1 | ⟨h1, h1'⟩ <;> rcases getElem?_append_one hx' with h2 | ⟨h2, h2'⟩
    · exact st.funcs k q x' h1 h2
    · have := (List.getElem?_eq_some_iff.1 h1).1
      have := st.typesLen.2
      omega
    · have := (List.getElem?_eq_some_iff.1 h2).1
      have := st.typesLen.2
      omega
    · subst h2'
      exact hx q h1'.symm

/-- A type is made that is not the type of a function. -/
theorem Keeps.type (st : Stands m h ids p v r) {x : MM MType} {y : IM TypeName}
    (hx : Sim noAddr x y i h m fun t w h' _ => h'.Type t w ∧ ∀ q, w ≠ .func q) :
    Keeps (p.addType {}) (x >>= fun w => Pure.pure (r.addType w)) (y >>= fun t => Pure.pure (v.addType t)) i m :=
  .bind hx fun _ _ _ _ _ ms ht => .pure ((st.step ms).addType ht.1 fun q hq => absurd hq (ht.2 q))

theorem sim_type (st : Stands m h ids p v r) (k : Nat) :
    Sim noAddr (r.type k) (IM.lift (v.type k)) i h m fun t w h' m' => h' = h ∧ m' = m ∧ h.Type t w ∧
      v.types[k]? = some t ∧ r.types[k]? = some w ∧ ∀ q, w = .func q → ids q = some (p.type k) := by
  unfold SigRefs.type SigVals.type
  cases hv : v.types[k]? with
  | none =>
    have : r.types[k]? = none := by
      rw [List.getElem?_eq_none_iff] at hv ⊢
      rw [← st.typesLen.1]
      exact hv
    rw [this]
    exact ⟨m, rfl⟩
  | some t =>
    obtain ⟨w, hw⟩ : ∃ w, r.types[k]? = some w := by
      have := (List.getElem?_eq_some_iff.1 hv).1
      rw [st.typesLen.1] at this
      exact ⟨_, List.getElem?_eq_getElem this⟩
    obtain ⟨x, hx⟩ : ∃ x, p.types[k]? = some x := by
      have := (List.getElem?_eq_some_iff.1 hv).1
      rw [st.typesLen.1, ← st.typesLen.2] at this
      exact ⟨_, List.getElem?_eq_getElem this⟩
    rw [hw]
    refine ⟨w, h, m, rfl, .refl st.inPart, rfl, rfl, st.types k t w hv hw, rfl, rfl, fun q hq => ?_⟩
    subst hq
    rw [SigPlan.type, List.getD_eq_getElem?_getD, hx]
    exact st.funcs k q x hw hx

theorem sim_obj (st : Stands m h ids p v r) (k : Nat) :
    Sim noAddr (r.obj k) (IM.lift (v.sig k)) i h m fun s a h' m' =>
      h' = h ∧ m' = m ∧ v.sigs[k]? = some s ∧ r.objs[k]? = some a := by
  unfold SigRefs.obj SigVals.sig
  cases hv : v.sigs[k]? with
  | none =>
    have : r.objs[k]? = none := by
      rw [List.getElem?_eq_none_iff] at hv ⊢
      rw [st.len]
      exact hv
    rw [this]
    exact ⟨m, rfl⟩
  | some s =>
    obtain ⟨a, ha⟩ : ∃ a, r.objs[k]? = some a := by
      have := (List.getElem?_eq_some_iff.1 hv).1
      rw [← st.len] at this
      exact ⟨_, List.getElem?_eq_getElem this⟩
    rw [ha]
    exact ⟨a, h, m, rfl, .refl st.inPart, rfl, rfl, rfl, rfl⟩

/-! ## New signatures -/

/-- One more signature in the program. -/
theorem Stands.addObj (st : Stands m h ids p v r) {a : Nat} {s : MSig} {sig : Signature} {x : ListIds} {f : Bool}
    (hx : ids a = some x) (hs : m.cells a = some (.sig s)) (hsig : h.Sig sig s)
    (hf : h a = if f then some (.sig s) else none) (new : f = false → a ∉ r.objs) :
    Stands m h ids (p.addSig (x, f)) (v.addSig sig) (r.addObj a) := by
  refine ⟨st.inPart, by simp [SigRefs.addObj, SigVals.addSig, st.len],
    by simp [SigPlan.addSig, SigVals.addSig, st.planLen], ?_, ?_, fun a x ha => ?_, st.apart, st.typesLen, st.types,
    st.funcs, st.used⟩
  · intro k k' b y hk hk' hy
    rcases getElem?_append_one hy with h3 | ⟨h3, h3'⟩
    · rcases getElem?_append_one hk with h1 | ⟨h1, -⟩
      · rcases getElem?_append_one hk' with h2 | ⟨h2, rfl⟩
        · exact st.inj k k' b y h1 h2 h3
        · obtain ⟨sig', hsig'⟩ : ∃ sig', v.sigs[k]? = some sig' := by
            have := (List.getElem?_eq_some_iff.1 h1).1
            rw [st.len] at this
            exact ⟨_, List.getElem?_eq_getElem this⟩
          obtain ⟨-, s', h4, -, h5⟩ := st.obj k b sig' y false h1 hsig' h3
          cases f with
          | false => exact absurd (List.mem_of_getElem? h1) (new rfl)
          | true =>
            rw [h5] at hf
            simp at hf
      · have := (List.getElem?_eq_some_iff.1 h3).1
        have := st.len
        have := st.planLen
        omega
    · cases h3'
      rcases getElem?_append_one hk with h1 | ⟨h1, rfl⟩
      · have := (List.getElem?_eq_some_iff.1 h1).1
        have := st.len
        have := st.planLen
        omega
      rcases getElem?_append_one hk' with h2 | ⟨h2, -⟩
      · exact absurd (List.mem_of_getElem? h2) (new rfl)
      · omega
  · intro k b sig' y f' hk hsig' hy
    have e1 := st.len
    have e2 := st.planLen
    rcases getElem?_append_one hk with h1 | ⟨h1, rfl⟩
    · have e3 := (List.getElem?_eq_some_iff.1 h1).1
      rcases getElem?_append_one hsig' with h2 | ⟨h2, -⟩
      · rcases getElem?_append_one hy with h3 | ⟨h3, -⟩
        · exact st.obj k b sig' y f' h1 h2 h3
        · omega
      · omega
    · rcases getElem?_append_one hsig' with h2 | ⟨h2, rfl⟩
      · have e3 := (List.getElem?_eq_some_iff.1 h2).1
        omega
      rcases getElem?_append_one hy with h3 | ⟨h3, h3'⟩
      · have e3 := (List.getElem?_eq_some_iff.1 h3).1
        omega
      cases h3'
      exact ⟨hx, s, hs, hsig, hf⟩
  · obtain ⟨h1, s, h2, h3⟩ := st.held a x ha
    exact ⟨h1, s, h2, fun b => ⟨(h3 b).elems, (h3 b).zero, (h3 b).lt, (h3 b).ends⟩⟩

theorem slot_empty (b : Bool) : (MSig.slot ⟨⟨0, 0, 0⟩, ⟨0, 0, 0⟩, false⟩ b).len = 0 := by cases b <;> rfl

theorem Stands.objs_lt (st : Stands m h ids p v r) {a : Nat} (ha : a ∈ r.objs) : a < m.next := by
  obtain ⟨k, hk⟩ := List.mem_iff_getElem?.1 ha
  obtain ⟨_, _, _, _, -, -, -, -, h1, -⟩ := st.at_obj hk
  exact h1

theorem follows_new (st : Stands m h ids p v r) (hp : 0 < p.next) (g : Growth) (fuel : Nat) :
    Keeps (p.addSig ({}, false)) (SigCmd.new.execM g fuel r) (SigCmd.new.execV v) i m := by
  have ms : MStep noAddr h m h (m.after (.sig ⟨⟨0, 0, 0⟩, ⟨0, 0, 0⟩, false⟩)) := st.inPart.alloc_private _
  have hcell : (m.after (.sig ⟨⟨0, 0, 0⟩, ⟨0, 0, 0⟩, false⟩)).cells m.next = some (.sig ⟨⟨0, 0, 0⟩, ⟨0, 0, 0⟩, false⟩) := by
    simp [Mem.after]
  have st1 := (st.step ms).hold (a := m.next) (x := {}) (st.unheld (Nat.le_refl _)) (Nat.lt_succ_self _) hcell
    (fun b => ⟨⟨[], by unfold Part.elems; rw [if_pos (slot_empty b)]⟩, fun _ => slot_empty b, by cases b <;> exact hp,
      fun _ h0 => absurd (slot_empty b) h0⟩)
    (fun _ _ _ b _ _ _ h0 => absurd (slot_empty b) h0) (fun h0 => absurd (slot_empty false) h0)
  have st2 := st1.addObj (a := m.next) (sig := ⟨[], [], false⟩) (f := false) (if_pos rfl) hcell (by
      rw [Part.Sig]
      exact ⟨rfl, [], [], rfl, by simp [Part.Args], rfl, by simp [Part.Args]⟩) st.inPart.free
    (fun _ hm => Nat.lt_irrefl _ (st.objs_lt hm))
  exact ⟨_, _, _, _, rfl, st2⟩

theorem follows_copy (st : Stands m h ids p v r) (g : Growth) (fuel o : Nat) :
    Keeps (p.addSig ((p.sig o).1, false)) ((SigCmd.copy o).execM g fuel r) ((SigCmd.copy o).execV v) i m := by
  refine .bind (sim_obj st o) ?_
  rintro sig a h' m' i' - ⟨rfl, rfl, hsig, ha⟩
  obtain ⟨sig', x, f, s, hsig', hx, hpx, hida, hlt, hs, hsg, hfr, hheld⟩ := st.at_obj ha
  rw [hsig] at hsig'
  cases hsig'
  rw [hpx]
  refine .left (loadSig_of hs _) (.left (alloc_apply _ _ _) ?_)
  have ms : MStep noAddr h' m' h' (m'.after (.sig s)) := st.inPart.alloc_private _
  have hcell : (m'.after (.sig s)).cells m'.next = some (.sig s) := by simp [Mem.after]
  have hold : ∀ a' x', ids a' = some x' → (m'.after (.sig s)).cells a' = m'.cells a' := fun a' x' hx' =>
    ms.same a' (st.held a' x' hx').1 id
  have st1 := (st.step ms).hold (a := m'.next) (x := x) (st.unheld (Nat.le_refl _)) (Nat.lt_succ_self _) hcell hheld
    (fun a' x' s' b b' hx' hs' => by
      rw [hold a' x' hx'] at hs'
      exact st.apart a a' x x' s s' b b' hida hx' hs hs')
    (st.apart a a x x s s false true hida hida hs hs)
  exact .pure (st1.addObj (a := m'.next) (f := false) (if_pos rfl) hcell hsg st.inPart.free
    (fun _ hm => Nat.lt_irrefl _ (st.objs_lt hm)))

theorem follows_sigOf (st : Stands m h ids p v r) (g : Growth) (fuel t : Nat) :
    Keeps (p.addSig (p.type t, true)) ((SigCmd.sigOf t).execM g fuel r) ((SigCmd.sigOf t).execV v) i m := by
  refine .bind (sim_type st t) ?_
  rintro ty w h' m' i' - ⟨rfl, rfl, ht, -, -, hq⟩
  cases ty <;> cases w <;> simp only [Part.Type] at ht <;> first | exact ⟨m', rfl⟩ | skip
  obtain ⟨s, h1, h2⟩ := ht
  exact .pure (st.addObj (hq _ rfl) (st.inPart.le.get h1) h2 h1 nofun)

/-! ## Changes -/

theorem args_append {h : Part} : ∀ {l : List ArgType} {E : List Elem} {n : GoString} {t : TypeName} {w : MType},
    h.Args l E → h.Type t w → h.Args (l ++ [⟨n, t⟩]) (E ++ [.arg n w])
  | [], [], _, _, _, _, ht => by simpa [Part.Args] using ht
  | [], _ :: _, _, _, _, hl, _ => by simp [Part.Args] at hl
  | ⟨_, _⟩ :: _, [], _, _, _, hl, _ => by simp [Part.Args] at hl
  | ⟨_, _⟩ :: l, e :: E, _, _, _, hl, ht => by
    cases e with
    | arg n' v' =>
      simp only [List.cons_append, Part.Args] at hl ⊢
      exact ⟨hl.1, hl.2.1, args_append hl.2.2 ht⟩
    | _ => simp [Part.Args] at hl

/-- The same signature with other arguments or results. -/
def MSig.setSlot (s : MSig) (b : Bool) (x : Slice) : MSig := if b then { s with results := x } else { s with args := x }

theorem slot_setSlot (s : MSig) (b : Bool) (x : Slice) : (s.setSlot b x).slot b = x := by cases b <;> rfl
theorem slot_setSlot_not (s : MSig) (b : Bool) (x : Slice) : (s.setSlot b x).slot (!b) = s.slot (!b) := by cases b <;> rfl

/-- Something is appended to the arguments or results. -/
theorem Stands.append (st : Stands m h ids p v r) {k a : Nat} {s : MSig} {x : ListIds} (ha : r.objs[k]? = some a)
    (hk : p.sigs[k]? = some (x, false)) (hs : m.cells a = some (.sig s)) (g : Growth) (b : Bool)
    (hfree : p.free (x.slot b) = true) (e : Elem) {E : List Elem} (he : h.elems (s.slot b) = some E) (i : Imports) :
    ∃ s1 m1 h1, appendElem g (s.slot b) e m i = (.ok s1, m1, i) ∧ h.Le h1 ∧ h1.elems s1 = some (E ++ [e]) ∧
      ∀ sig1 x1, x1.slot b = p.next → x1.slot (!b) = x.slot (!b) → h1.Sig sig1 (s.setSlot b s1) →
        ∃ ids', Stands (m1.put a (.sig (s.setSlot b s1))) h1 ids'
          { p with sigs := p.sigs.set k (x1, false), used := x.slot b :: p.used, next := p.next + 1 }
          (v.setSig k sig1) r := by
  obtain ⟨sig, x', f', s', hsig, hx', -, hida, hlt, hs', hsg, hnone, hheld⟩ := st.at_obj ha
  rw [hk] at hx'
  cases hx'
  rw [hs] at hs'
  cases hs'
  obtain ⟨s1, m1, h1, e', le, a1, next, hel, hends, hne, harr, hcells, hpart⟩ :=
    appendElem_of g st.inPart he ((hheld b).ends hfree) e i
  refine ⟨s1, m1, h1, e', le, hel, fun sig1 x1 hx1 hx1' hs1 => ?_⟩
  have hcase : ∀ (P : Bool → Prop), P b → P (!b) → ∀ c, P c := fun P h1 h2 c => by
    cases b <;> cases c <;> assumption
  have hplan : ∀ n, SigPlan.free { p with sigs := p.sigs.set k (x1, false), used := x.slot b :: p.used, next := p.next + 1 } n =
      (n == 0 || !(x.slot b :: p.used).contains n) := fun n => rfl
  have hsub : ∀ n, SigPlan.free { p with sigs := p.sigs.set k (x1, false), used := x.slot b :: p.used, next := p.next + 1 } n = true →
      p.free n = true := fun n hn => by
    rw [hplan] at hn
    simp only [SigPlan.free, Bool.or_eq_true, List.contains_cons, Bool.not_or, Bool.and_eq_true] at hn ⊢
    exact hn.imp id And.right
  -- the other slice
  have hother : (s.slot (!b)).len ≠ 0 →
      SigPlan.free { p with sigs := p.sigs.set k (x1, false), used := x.slot b :: p.used, next := p.next + 1 } (x.slot (!b)) = true →
      (s.slot (!b)).arr < m.next ∧ ((s.slot b).len ≠ 0 → (s.slot (!b)).arr ≠ (s.slot b).arr) := fun h0 hf => by
    obtain ⟨E', he'⟩ := (hheld (!b)).elems
    refine ⟨elems_lt st.inPart he' h0, fun h0' e' => ?_⟩
    have := st.apart a a x x s s (!b) b hida hida hs hs h0 h0' e' (hsub _ hf) hfree
    rw [hplan, this] at hf
    simp only [List.contains_cons, beq_self_eq_true, Bool.true_or, Bool.not_true, Bool.or_false, beq_iff_eq] at hf
    exact h0' ((hheld b).zero hf)
  refine ⟨_, st.update (T := fun q => (s.slot b).len ≠ 0 ∧ q = (s.slot b).arr) ha hk hs le a1 next
    (fun q hq hn => hcells q hq fun h0 e => hn ⟨h0, e⟩) (fun q hq hn => hpart q hq fun h0 e => hn ⟨h0, e⟩)
    ?_ (fun n _ => hsub n) (Nat.le_succ _) ?_ rfl rfl hs1 (hcase _ ?_ ?_) (hcase _ ?_ ?_) ?_⟩
  · rintro q ⟨h0, rfl⟩
    refine ⟨b, h0, rfl, hfree, ?_⟩
    rw [hplan]
    simpa using fun hz => h0 ((hheld b).zero hz)
  · intro n hn
    rcases List.mem_cons.1 hn with rfl | hn
    · exact Nat.lt_succ_of_lt (hheld b).lt
    · exact Nat.lt_succ_of_lt (st.used n hn)
  · rw [slot_setSlot, hx1]
    refine ⟨⟨_, hel⟩, fun hz => ?_, Nat.lt_succ_self _, fun _ => hends⟩
    have := (hheld b).lt
    omega
  · rw [slot_setSlot_not, hx1']
    obtain ⟨E', he'⟩ := (hheld (!b)).elems
    refine ⟨⟨E', Part.elems_mono le he'⟩, (hheld (!b)).zero, Nat.lt_succ_of_lt (hheld (!b)).lt, fun hf h0 l hl => ?_⟩
    obtain ⟨g1, g2⟩ := hother h0 hf
    rw [hpart _ g1 g2] at hl
    exact (hheld (!b)).ends (hsub _ hf) h0 l hl
  · rw [slot_setSlot]
    exact fun _ _ => harr.imp id fun h => .inl h
  · rw [slot_setSlot_not]
    exact fun h0 _ => .inr (.inr ⟨h0, rfl, hx1'⟩)
  · have key : ((s.setSlot b s1).slot b).len ≠ 0 → ((s.setSlot b s1).slot (!b)).len ≠ 0 →
        SigPlan.free { p with sigs := p.sigs.set k (x1, false), used := x.slot b :: p.used, next := p.next + 1 }
          (x1.slot (!b)) = true →
        ((s.setSlot b s1).slot b).arr ≠ ((s.setSlot b s1).slot (!b)).arr := by
      rw [slot_setSlot, slot_setSlot_not, hx1']
      intro _ h0 hf e'
      obtain ⟨g1, g2⟩ := hother h0 hf
      rcases harr with h2 | ⟨h2, h3⟩
      · omega
      · exact g2 h2 (e'.symm.trans h3)
    cases b
    · exact fun h0 h0' e' _ hf => absurd e' (key h0 h0' hf)
    · exact fun h0 h0' e' hf _ => absurd e'.symm (key h0' h0 hf)

theorem follows_addArg (st : Stands m h ids p v r) (g : Growth) (fuel : Nat) (o : Nat) (name : GoString) (t : Nat)
    (ho : (p.sig o).2 = false) (hfree : p.free (p.sig o).1.args = true) :
    Keeps { p with sigs := p.sigs.set o (⟨p.next, (p.sig o).1.results⟩, false), used := (p.sig o).1.args :: p.used,
                   next := p.next + 1 }
      ((SigCmd.addArg o name t).execM g fuel r) ((SigCmd.addArg o name t).execV v) i m := by
  refine .bind (sim_obj st o) ?_
  rintro sig a h' m' i' - ⟨rfl, rfl, hsig, ha⟩
  refine .bind (sim_type st t) ?_
  rintro ty w h' m' i' - ⟨rfl, rfl, ht, -⟩
  obtain ⟨sig', x, f, s, hsig', hx, hpx, hida, hlt, hs, hsg, hfr, hheld⟩ := st.at_obj ha
  rw [hsig] at hsig'
  cases hsig'
  rw [hpx] at ho hfree ⊢
  cases ho
  obtain ⟨args, results, va⟩ := sig
  rw [Part.Sig] at hsg
  obtain ⟨hva, E, E', h1, h2, h3, h4⟩ := hsg
  obtain ⟨s1, m1, h1', e, le, hel, hst⟩ := st.append ha hx hs g false hfree (.arg name w) h1 i'
  obtain ⟨ids', st'⟩ := hst ⟨args ++ [⟨name, ty⟩], results, va⟩ ⟨p.next, x.results⟩ rfl rfl (by
    rw [Part.Sig]
    exact ⟨hva, _, E', hel, args_append (h2.mono le _ _) (Part.Type.mono le _ _ ht), Part.elems_mono le h3,
      h4.mono le _ _⟩)
  refine ⟨r, h1', ids', _, ?_, st'⟩
  simp only [sigAddArgM, MM.bind_apply, loadSig_of hs]
  rw [show s.args = s.slot false from rfl, e]
  rfl

theorem follows_addResult (st : Stands m h ids p v r) (g : Growth) (fuel : Nat) (o : Nat) (name : GoString) (t : Nat)
    (ho : (p.sig o).2 = false) (hfree : p.free (p.sig o).1.results = true) :
    Keeps { p with sigs := p.sigs.set o (⟨(p.sig o).1.args, p.next⟩, false), used := (p.sig o).1.results :: p.used,
                   next := p.next + 1 }
      ((SigCmd.addResult o name t).execM g fuel r) ((SigCmd.addResult o name t).execV v) i m := by
  refine .bind (sim_obj st o) ?_
  rintro sig a h' m' i' - ⟨rfl, rfl, hsig, ha⟩
  refine .bind (sim_type st t) ?_
  rintro ty w h' m' i' - ⟨rfl, rfl, ht, -⟩
  obtain ⟨sig', x, f, s, hsig', hx, hpx, hida, hlt, hs, hsg, hfr, hheld⟩ := st.at_obj ha
  rw [hsig] at hsig'
  cases hsig'
  rw [hpx] at ho hfree ⊢
  cases ho
  obtain ⟨args, results, va⟩ := sig
  rw [Part.Sig] at hsg
  obtain ⟨hva, E, E', h1, h2, h3, h4⟩ := hsg
  obtain ⟨s1, m1, h1', e, le, hel, hst⟩ := st.append ha hx hs g true hfree (.arg name w) h3 i'
  obtain ⟨ids', st'⟩ := hst ⟨args, results ++ [⟨name, ty⟩], va⟩ ⟨x.args, p.next⟩ rfl rfl (by
    rw [Part.Sig]
    exact ⟨hva, E, _, Part.elems_mono le h1, h2.mono le _ _, hel,
      args_append (h4.mono le _ _) (Part.Type.mono le _ _ ht)⟩)
  refine ⟨r, h1', ids', _, ?_, st'⟩
  simp only [sigAddResultM, MM.bind_apply, loadSig_of hs]
  rw [show s.results = s.slot true from rfl, e]
  rfl

theorem set_self {l : List (ListIds × Bool)} {k : Nat} {x : ListIds × Bool} (h : l[k]? = some x) : l = l.set k x := by
  obtain ⟨hl, he⟩ := List.getElem?_eq_some_iff.1 h
  rw [← he, List.set_getElem_self]

theorem follows_setVariadic (st : Stands m h ids p v r) (g : Growth) (fuel : Nat) (o : Nat) (b : Bool)
    (ho : (p.sig o).2 = false) :
    Keeps p ((SigCmd.setVariadic o b).execM g fuel r) ((SigCmd.setVariadic o b).execV v) i m := by
  refine .bind (sim_obj st o) ?_
  rintro sig a h' m' i' - ⟨rfl, rfl, hsig, ha⟩
  obtain ⟨sig', x, f, s, hsig', hx, hpx, hida, hlt, hs, hsg, hfr, hheld⟩ := st.at_obj ha
  rw [hsig] at hsig'
  cases hsig'
  rw [hpx] at ho
  cases ho
  have hslot : ∀ c, MSig.slot { s with isVariadic := b } c = s.slot c := fun c => by cases c <;> rfl
  refine ⟨r, h', _, _, ?_, st.update (s1 := { s with isVariadic := b }) (sig1 := ⟨sig.args, sig.results, b⟩)
    (T := fun _ => False) ha hx hs (.refl h') st.inPart (Nat.le_refl _) (fun _ _ _ => rfl) (fun _ _ _ => rfl) nofun
    (fun _ _ h => h) (Nat.le_refl _) st.used (set_self hx) rfl ?_ ?_ ?_ ?_⟩
  · simp only [sigSetVariadicM, MM.bind_apply, loadSig_of hs]
    rfl
  · obtain ⟨args, results, va⟩ := sig
    rw [Part.Sig] at hsg ⊢
    exact ⟨rfl, hsg.2⟩
  · intro c
    rw [hslot]
    exact hheld c
  · intro c h0 _
    rw [hslot] at h0 ⊢
    exact .inr (.inr ⟨h0, rfl, rfl⟩)
  · rw [hslot, hslot]
    exact st.apart a a x x s s false true hida hida hs hs

/-- What `qualifySignature` makes of the lists. -/
theorem Stands.qualified (st : Stands m h ids p v r) {a : Nat} {x : ListIds} {s s1 : MSig} {h1 : Part} {m1 : Mem}
    (hida : ids a = some x) (hs : m.cells a = some (.sig s)) (ms : MStep noAddr h m h1 m1)
    (fa : s.args.From m.next h1 s1.args) (fr : s.results.From m.next h1 s1.results)
    (hel : ∀ b, ∃ E, h1.elems (s1.slot b) = some E)
    (htwo : s1.args = s.args ∨ s1.results = s.results ∨ s1.args.arr ≠ s1.results.arr) :
    (∀ b, Held h1 p (x.slot b) (s1.slot b)) ∧
    (∀ b, (s1.slot b).len ≠ 0 → m.next ≤ (s1.slot b).arr ∨ (s.slot b).len ≠ 0 ∧ (s1.slot b).arr = (s.slot b).arr) ∧
    ((s1.slot false).len ≠ 0 → (s1.slot true).len ≠ 0 → (s1.slot false).arr = (s1.slot true).arr →
      p.free (x.slot false) = true → p.free (x.slot true) = true → x.slot false = x.slot true) := by
  obtain ⟨-, s', hs', hheld⟩ := st.held a x hida
  rw [hs] at hs'
  cases hs'
  have hfrom : ∀ b, (s.slot b).From m.next h1 (s1.slot b) := fun b => by cases b <;> assumption
  have old : ∀ b, (s.slot b).len ≠ 0 → (s.slot b).arr < m.next := fun b h0 => by
    obtain ⟨E, he⟩ := (hheld b).elems
    exact elems_lt st.inPart he h0
  refine ⟨fun b => ⟨hel b, fun hz => ?_, (hheld b).lt, fun hf h0 l hl => ?_⟩, fun b h0 => ?_, fun h0 h0' e' hf hf' => ?_⟩
  · rcases hfrom b with hfr | ⟨-, hfr, -⟩
    · rw [hfr]
      exact (hheld b).zero hz
    · rw [hfr]
      exact (hheld b).zero hz
  · rcases hfrom b with hfr | ⟨-, -, l', hl', hlen⟩
    · rw [hfr] at h0 hl ⊢
      rw [ms.old _ (old b h0)] at hl
      exact (hheld b).ends hf h0 l hl
    · rw [hl'] at hl
      cases hl
      exact Nat.le_of_eq hlen
  · rcases hfrom b with hfr | ⟨hge, -⟩
    · rw [hfr] at h0 ⊢
      exact .inr ⟨h0, rfl⟩
    · exact .inl hge
  · rcases hfrom false with fa' | ⟨ga, -⟩
    · rcases hfrom true with fr' | ⟨gr, -⟩
      · rw [fa'] at h0 e'
        rw [fr'] at h0' e'
        exact st.apart a a x x s s false true hida hida hs hs h0 h0' e' hf hf'
      · rw [fa'] at h0 e'
        have := old false h0
        omega
    · rcases hfrom true with fr' | ⟨gr, -⟩
      · rw [fr'] at h0' e'
        have := old true h0'
        omega
      · rcases htwo with h5 | h5 | h5
        · have h6 : (s1.slot false) = s.slot false := h5
          rw [h6] at h0 ga
          have := old false h0
          omega
        · have h6 : (s1.slot true) = s.slot true := h5
          rw [h6] at h0' gr
          have := old true h0'
          omega
        · exact absurd e' h5

theorem follows_qualify (st : Stands m h ids p v r) (g : Growth) (fuel : Nat) (o : Nat) (ho : (p.sig o).2 = false)
    (hf : ∀ sig, v.sigs[o]? = some sig → sizeOf sig < fuel) :
    Keeps p ((SigCmd.qualify o).execM g fuel r) ((SigCmd.qualify o).execV v) i m := by
  refine .bind (sim_obj st o) ?_
  rintro sig a h' m' i' - ⟨rfl, rfl, hsig, ha⟩
  obtain ⟨sig', x, f, s, hsig', hx, hpx, hida, hlt, hs, hsg, hfr, hheld⟩ := st.at_obj ha
  rw [hsig] at hsig'
  cases hsig'
  rw [hpx] at ho
  cases ho
  have hsz := hf sig hsig
  have sim := sim_qualifySignatureM_from (r := true) (q := qualifyTypeM true fuel) (i := i')
      (fun x hx => sim_qualifyTypeM true fuel _ (by
        have := sizeOf_arg hx
        have := sizeOf_sig_args sig
        omega))
      (fun x hx => sim_qualifyTypeM true fuel _ (by
        have := sizeOf_arg hx
        have := sizeOf_sig_results sig
        omega)) st.inPart hs hlt hsg
  unfold Sim at sim
  unfold Keeps
  simp only [ensureAllTypesImported, sigQualifyM, ensureAllTypesImportedM, MM.bind_apply, IM.bind_apply]
  rcases hy : qualifySignature true sig i' with ⟨y | _ | _, j⟩
  · rw [hy] at sim
    obtain ⟨q, h1, m1, e, ms, hc⟩ := sim
    rw [e]
    dsimp only
    rcases hc with ⟨rfl, hcf, hs1⟩ | ⟨hne, -, -, s1, h2, hs1, fa, fr, htwo⟩
    · rw [if_neg (by simp)]
      have hp1 : m1.cells q = some (.sig s) := (ms.same q hlt id).trans hs
      refine ⟨r, h1, ids, m1, rfl, ?_⟩
      have hsame : y.1 = sig := (qualifySignature_flag true sig hy).1 hcf
      rw [hsame]
      have : v.setSig o sig = v := by
        have := List.getElem?_eq_some_iff.1 hsig
        obtain ⟨hl, he⟩ := this
        simp only [SigVals.setSig]
        rw [← he, List.set_getElem_self]
      rw [this]
      exact st.step ms
    · rw [if_pos hne]
      have hq := ms.after.le.get h2
      simp only [MM.bind_apply, loadSig_of hq, store_apply]
      obtain ⟨k1, k2, k3⟩ := st.qualified hida hs ms fa fr (sig_elems hs1) htwo
      exact ⟨r, h1, _, m1.put a (.sig s1), rfl, st.update (T := fun _ => False) ha hx hs ms.le ms.after ms.next
        (fun q hq _ => ms.same q hq id) (fun q hq _ => ms.old q hq) nofun (fun _ _ h => h) (Nat.le_refl _) st.used
        (set_self hx) rfl hs1 k1
        (fun b h0 _ => (k2 b h0).imp id fun h => .inr ⟨h.1, h.2, rfl⟩) k3⟩
  · rw [hy] at sim
    obtain ⟨m1, e⟩ := sim
    exact ⟨m1, by rw [e]⟩
  · rw [hy] at sim
    obtain ⟨m1, e⟩ := sim
    exact ⟨m1, by rw [e]⟩

end

end Gopoet
