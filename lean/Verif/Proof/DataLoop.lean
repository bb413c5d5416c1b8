import Verif.Proof.DataParts
/-!
# Qualification of template data in memory: the loop over fields and elements
-/

namespace Gopoet
open MM Imports

/-! ## Shapes -/

/-- The shape is that of `n` values. -/
def Shape.Fits (shape : Shape) (n : Nat) : Prop :=
  match shape with
  | .struct exported => exported.length = n
  | _ => True

theorem mapM_data : ∀ l : List DVal, (l.map Elem.data).mapM (fun
    | .data v => some v
    | _ => none) = some l
  | [] => rfl
  | v :: l => by simp [mapM_data l]

theorem Shape.parts_cell {shape : Shape} {l : List DVal} (h : shape.Fits l.length) :
    shape.parts (shape.cell l) = some l := by
  cases shape with
  | struct exported =>
    have h : exported.length = l.length := h
    simp only [Shape.cell, Shape.parts, Option.some.injEq]
    rw [List.map_snd_zip (by omega)]
  | array => rfl
  | slice => exact mapM_data l

theorem setPart_apply {shape : Shape} {m : Mem} {a : Nat} {D R : List DVal} {e v : DVal}
    (hc : m.cells a = some (shape.cell (D ++ e :: R))) (hf : shape.Fits (D ++ e :: R).length) (i : Imports) :
    setPart shape a D.length v m i =
      if shape.hides D.length then (.panic, m, i) else (.ok (), m.put a (shape.cell (D ++ v :: R)), i) := by
  unfold setPart
  by_cases hh : shape.hides D.length = true
  · rw [if_pos hh, if_pos hh]
    rfl
  · rw [if_neg hh, if_neg hh]
    simp only [MM.bind_apply, load, hc, Shape.parts_cell hf]
    rw [if_pos (by simp), store_apply]
    simp

/-- Some field with number below `n` is unexported. -/
def Shape.hidesBelow (shape : Shape) : Nat → Bool
  | 0 => false
  | n + 1 => shape.hidesBelow n || shape.hides n

/-- What is being built, outside of the part. -/
structure Making (shape : Shape) (h : Part) (m : Mem) (l : List DVal) (a : Nat) : Prop where
  cell : m.cells a = some (shape.cell l)
  lt : a < m.next
  out : h a = none

theorem Making.step {shape : Shape} {h h' : Part} {m m' : Mem} {l : List DVal} {a : Nat} {W : Nat → Prop}
    (b : Making shape h m l a) (s : MStep W h m h' m') (hw : ¬W a) : Making shape h' m' l a :=
  ⟨(s.same _ b.lt hw).trans b.cell, Nat.lt_of_lt_of_le b.lt s.next, s.outside b.lt b.out⟩

theorem Making.put {shape : Shape} {h : Part} {m : Mem} {l l' : List DVal} {a : Nat}
    (b : Making shape h m l a) : Making shape h (m.put a (shape.cell l')) l' a :=
  ⟨by simp [Mem.put], b.lt, b.out⟩

/-- The function reads the values of the list, whatever else happens to the memory. -/
def Reads (h : Part) (get : Nat → MM DVal) (l : List DVal) : Prop :=
  ∀ h' m i, h.Le h' → At h' m → ∀ pre v suf, l = pre ++ v :: suf → get pre.length m i = (.ok v, m, i)

theorem Reads.mono {h h' : Part} (le : h.Le h') {get : Nat → MM DVal} {l : List DVal} (r : Reads h get l) :
    Reads h' get l := fun h'' m i le' a => r h'' m i (le.trans le') a

theorem reads_partOf (h : Part) (l : List DVal) : Reads h (partOf l) l := by
  rintro h' m i - - pre v suf rfl
  simp [partOf]
  rfl

theorem reads_slice {h : Part} {s : Slice} {l : List DVal} (hl : h.elems s = some (l.map .data)) :
    Reads h (loadDataElem s) l := by
  rintro h' m i le a pre v suf rfl
  have := loadElem_of_at (pre := pre.map .data) (e := .data v) (suf := suf.map .data) a
    (by simpa using Part.elems_mono le hl) i
  rw [List.length_map] at this
  simp only [loadDataElem, MM.bind_apply, this]
  rfl

theorem copyParts_apply {shape : Shape} {get : Nat → MM DVal} {src : List DVal} {h : Part} (hg : Reads h get src)
    {a : Nat} (i : Imports) : ∀ (n : Nat) (done cur suf R : List DVal) (m : Mem), src = done ++ cur ++ suf →
      cur.length = n → R.length = cur.length + suf.length → shape.Fits src.length →
      shape.hidesBelow done.length = false →
      At h m → Making shape h m (done ++ R) a →
      if shape.hidesBelow (done.length + n) then
        ∃ m', copyParts shape get a n done.length m i = (.panic, m', i)
      else ∃ m', copyParts shape get a n done.length m i = (.ok (), m', i) ∧ MStep (fun p => p = a) h m h m' ∧
        Making shape h m' (done ++ cur ++ R.drop n) a
  | 0, done, cur, suf, R, m, hs, hn, hR, hf, hb, ha, mg => by
    have : cur = [] := List.length_eq_zero_iff.1 hn
    subst this
    rw [Nat.add_zero, hb]
    exact ⟨m, rfl, .refl ha, by simpa using mg⟩
  | n + 1, done, [], _, _, _, _, hn, _, _, _, _, _ => by simp at hn
  | n + 1, done, v :: cur, suf, [], m, hs, hn, hR, hf, hb, ha, mg => by
    simp at hR
    omega
  | n + 1, done, v :: cur, suf, r :: R, m, hs, hn, hR, hf, hb, ha, mg => by
    have hfit : shape.Fits (done ++ r :: R).length := by
      rw [hs] at hf
      simp only [List.length_append, List.length_cons] at hf hR ⊢
      have e : done.length + (cur.length + 1) + suf.length = done.length + (R.length + 1) := by omega
      rwa [e] at hf
    have hget : get done.length m i = (.ok v, m, i) :=
      hg h m i (.refl h) ha done v (cur ++ suf) (by rw [hs]; simp)
    rw [copyParts, MM.bind_apply, hget]
    dsimp only
    rw [MM.bind_apply, setPart_apply mg.cell hfit]
    by_cases hh : shape.hides done.length = true
    · have h0 : ∀ k, shape.hidesBelow (done.length + (k + 1)) = true := by
        intro k
        induction k with
        | zero => simp [Shape.hidesBelow, hh]
        | succ k ih => rw [← Nat.add_assoc, Shape.hidesBelow, ih, Bool.true_or]
      rw [h0 n, if_pos rfl, if_pos hh]
      exact ⟨m, rfl⟩
    · rw [if_neg hh]
      dsimp only
      have st : MStep (fun p => p = a) h m h (m.put a (shape.cell (done ++ v :: R))) := ha.put _ mg.out fun _ => rfl
      have mg' : Making shape h (m.put a (shape.cell (done ++ v :: R))) ((done ++ [v]) ++ R) a := by
        simpa using mg.put (l' := done ++ v :: R)
      have ih := copyParts_apply hg i n (done ++ [v]) cur suf R _ (by rw [hs]; simp) (by simpa using hn)
        (by simp at hR; omega) hf (by simp [Shape.hidesBelow, hb, hh]) st.after mg'
      have e1 : (done ++ [v]).length + n = done.length + (n + 1) := by
        simp
        omega
      rw [e1] at ih
      have e2 : (done ++ [v]).length = done.length + 1 := by simp
      rw [e2] at ih
      split
      · rename_i hx
        rw [if_pos hx] at ih
        exact ih
      · rename_i hx
        rw [if_neg hx] at ih
        obtain ⟨m', e, s, mk2⟩ := ih
        exact ⟨m', e, st.trans s, by simpa using mk2⟩

/-! ## The loop -/

/-- The loop on trees, for fields and elements. -/
def partsQ (shape : Shape) (addr : Bool) (Q : TVal → IM (TVal × Bool)) :
    Bool → Nat → List TVal → IM (List TVal × Bool)
  | changed, _, [] => pure ([], changed)
  | changed, idx, t :: ts =>
    if shape.hides idx && !addr then IM.panic
    else do
      let x ← Q t
      if (changed && shape.hides idx) ||
          (!changed && x.2 && (!shape.sliceable addr || shape.hidesBelow (idx + 1))) || (x.2 && t.ifacePtr) then
        IM.panic
      else do
        let xs ← partsQ shape addr Q (changed || x.2) (idx + 1) ts
        pure (x.1 :: xs.1, xs.2)

/-- What qualification of the data `t` that is the value `v` gives. -/
structure DataPostM (t : TVal) (v : DVal) (a : TVal × Bool) (r : DRes) (h : Part) : Prop where
  data : h.Data a.1 r.val
  changed : r.changed = a.2
  same : a.2 = false → r.val = v
  retyped : r.retyped = (a.2 && t.ifacePtr)
  iface : a.1.isIface = t.isIface
  addr : ∀ b, r.addr = some b → h.dataAt b [] = some r.val.inIface

/-- `q` qualifies the data `t` in memory. -/
def DataSim (q : DVal → MM DRes) (Q : TVal → IM (TVal × Bool)) (t : TVal) : Prop :=
  ∀ v h m i, At h m → h.Data t v → Sim noAddr (q v) (Q t) i h m fun a r h' _ => DataPostM t v a r h'

theorem sim_partsLoop {shape : Shape} {addr : Bool} {get : Nat → MM DVal} {q : DVal → MM DRes}
    {Q : TVal → IM (TVal × Bool)} {src : List DVal} (hf : shape.Fits src.length) :
    ∀ (ts : List TVal), (∀ t ∈ ts, DataSim q Q t) →
      ∀ (pre D E R : List DVal) (new : Option Nat) (h : Part) (m : Mem) (i : Imports), At h m → Reads h get src →
      src = pre ++ E → D.length = pre.length → R.length = E.length →
      h.DataElems ts E → (new = none → D = pre) →
      (∀ a, new = some a → Making shape h m (D ++ R) a) →
      Sim (fun p => new = some p) (partsLoop shape addr get q src.length E.length pre.length new)
        (partsQ shape addr Q new.isSome pre.length ts) i h m
        fun x o h' m' => ∃ Y, h'.DataElems x.1 Y ∧
          match o with
          | none => new = none ∧ x.2 = false ∧ Y = E
          | some a => x.2 = true ∧ Making shape h' m' (D ++ Y) a ∧ (new = some a ∨ new = none ∧ m.next ≤ a)
  | [], _, pre, D, E, R, new, h, m, i, ha, hg, hs, hD, hR, hE, hn, hm => by
    cases E with
    | cons _ _ => simp [Part.DataElems] at hE
    | nil =>
      have : R = [] := List.length_eq_zero_iff.1 hR
      subst this
      refine .pure ha ⟨[], by simp [Part.DataElems], ?_⟩
      cases new with
      | none => exact ⟨rfl, rfl, rfl⟩
      | some a => exact ⟨rfl, hm a rfl, .inl rfl⟩
  | t :: ts, hq, pre, D, E, R, new, h, m, i, ha, hg, hs, hD, hR, hE, hn, hm => by
    cases E with
    | nil => simp [Part.DataElems] at hE
    | cons v E =>
    cases R with
    | nil => simp at hR
    | cons r R =>
    rw [Part.DataElems] at hE
    obtain ⟨ht, hts⟩ := hE
    rw [partsQ, List.length_cons, partsLoop]
    by_cases hh : (shape.hides pre.length && !addr) = true
    · rw [if_pos hh, if_pos hh]
      exact .panic
    rw [if_neg hh, if_neg hh]
    refine .left (hg h m i (.refl h) ha pre v E hs) (.refl ha) ?_
    refine ((hq t (by simp) v h m i ha ht).steps fun p _ hp => hp.elim).bind ?_
    rintro ⟨t', c⟩ res h1 m1 i1 - ⟨s1, post⟩
    dsimp only
    have hc : res.changed = c := post.changed
    have hret : res.retyped = (c && t.ifacePtr) := post.retyped
    have hg1 := hg.mono s1.le
    have hs1 : src = (pre ++ [v]) ++ E := by rw [hs]; simp
    have hts1 := hts.mono s1.le
    have hq1 : ∀ t ∈ ts, DataSim q Q t := fun t ht => hq t (by simp [ht])
    -- after the value was stored
    have key : ∀ (a : Nat) (m2 : Mem) (r : DVal) (R : List DVal), R.length = E.length → At h1 m2 →
        Making shape h1 m2 (D ++ r :: R) a → res.retyped = false →
        shape.hides pre.length = false →
        Sim (fun p => a = p)
          (setRes shape a pre.length res >>= fun _ =>
            partsLoop shape addr get q src.length E.length (pre.length + 1) (some a))
          (partsQ shape addr Q true (pre.length + 1) ts >>= fun xs => pure (t' :: xs.1, xs.2)) i1 h1 m2
          fun x o h' m' => ∃ Y, h'.DataElems x.1 Y ∧ x.2 = true ∧ o = some a ∧ Making shape h' m' (D ++ Y) a := by
      intro a m2 r R hR a2 mk hr hhid
      have st : MStep (fun p => a = p) h1 m2 h1 (m2.put a (shape.cell (D ++ res.val :: R))) :=
        a2.put _ mk.out fun _ => rfl
      have hlen : (D ++ r :: R).length = src.length := by
        rw [hs]
        simp only [List.length_append, List.length_cons]
        omega
      refine .left (m' := m2.put a (shape.cell (D ++ res.val :: R))) (b := ()) ?_ st ?_
      · unfold setRes
        rw [hr]
        simp only [Bool.false_eq_true, if_false]
        rw [← hD, setPart_apply mk.cell (by rw [hlen]; exact hf), hD, hhid]
        simp
      have ih := sim_partsLoop (addr := addr) hf ts hq1 (pre ++ [v]) (D ++ [res.val]) E R (some a) h1
        (m2.put a (shape.cell (D ++ res.val :: R))) i1 st.after hg1 hs1 (by simp [hD]) hR hts1
        (fun h => by cases h) (fun a' ha' => by
          cases ha'
          simpa using mk.put (l' := D ++ res.val :: R))
      rw [List.length_append] at ih
      refine (ih.steps (W' := fun p => a = p) ?_).right ?_
      · rintro p - h
        exact Option.some.inj h
      rintro ⟨ys, cs⟩ o h2 m3 s2 ⟨-, Y, hY, ho⟩
      refine ⟨res.val :: Y, ?_, ?_⟩
      · rw [Part.DataElems]
        exact ⟨post.data.mono s2.le, hY⟩
      · cases o with
        | none => cases ho.1
        | some a' =>
          obtain ⟨h3, h4, h5⟩ := ho
          have : a' = a := by
            rcases h5 with h | h
            · exact (Option.some.inj h).symm
            · cases h.1
          subst this
          exact ⟨h3, rfl, by simpa using h4⟩
    -- the element is stored, or there is a panic
    have key' : ∀ (a : Nat) (m2 : Mem) (r : DVal) (R : List DVal), R.length = E.length → At h1 m2 →
        Making shape h1 m2 (D ++ r :: R) a →
        Sim (fun p => a = p)
          (setRes shape a pre.length res >>= fun _ =>
            partsLoop shape addr get q src.length E.length (pre.length + 1) (some a))
          (if (shape.hides pre.length || (c && t.ifacePtr)) = true then IM.panic
            else partsQ shape addr Q true (pre.length + 1) ts >>= fun xs => pure (t' :: xs.1, xs.2)) i1 h1 m2
          fun x o h' m' => ∃ Y, h'.DataElems x.1 Y ∧ x.2 = true ∧ o = some a ∧ Making shape h' m' (D ++ Y) a := by
      intro a m2 r R hR a2 mk
      by_cases hbad : (shape.hides pre.length || (c && t.ifacePtr)) = true
      · rw [if_pos hbad]
        refine ⟨m2, ?_⟩
        rw [MM.bind_apply]
        have hlen : (D ++ r :: R).length = src.length := by
          rw [hs]
          simp only [List.length_append, List.length_cons]
          omega
        have : setRes shape a pre.length res m2 i1 = (.panic, m2, i1) := by
          unfold setRes
          rw [hret]
          by_cases hr : (c && t.ifacePtr) = true
          · rw [if_pos hr]
            rfl
          · rw [if_neg hr, ← hD, setPart_apply mk.cell (by rw [hlen]; exact hf), hD]
            have : shape.hides pre.length = true := by simpa [hr] using hbad
            rw [if_pos this]
        rw [this]
      · rw [if_neg hbad]
        simp only [Bool.or_eq_true, not_or, Bool.not_eq_true] at hbad
        exact key a m2 r R hR a2 mk (hret.trans hbad.2) hbad.1
    cases new with
    | some a =>
      have k := key' a m1 r R (by simpa using hR) s1.after ((hm a rfl).step s1 id)
      simp only [Option.isSome_some, Bool.true_and, Bool.not_true, Bool.false_and, Bool.or_false, Bool.true_or]
      refine k.mono (fun p _ hp => by rw [hp]) ?_
      rintro x o h' m' - ⟨Y, h1, h2, rfl, h3⟩
      exact ⟨Y, h1, h2, h3, .inl rfl⟩
    | none =>
      have hD' := hn rfl
      subst hD'
      simp only [Option.isSome_none, Bool.false_and, Bool.not_false, Bool.true_and, Bool.false_or]
      rw [hc]
      by_cases hct : c = true
      · subst hct
        rw [if_pos rfl]
        simp only [Bool.true_and]
        by_cases hsl : shape.sliceable addr = true
        · rw [if_pos hsl, hsl]
          simp only [Bool.not_true, Bool.false_or, Shape.hidesBelow]
          have hlen : (List.replicate src.length (DVal.scalar 0)).length = src.length := by simp
          have sa : MStep (fun p => m1.next = p) h1 m1 h1
              (m1.after (shape.cell (List.replicate src.length (DVal.scalar 0)))) := s1.after.alloc_private _
          have mk : Making shape h1 (m1.after (shape.cell (List.replicate src.length (DVal.scalar 0))))
              ([] ++ List.replicate src.length (DVal.scalar 0)) m1.next :=
            ⟨by simp [Mem.after], Nat.lt_succ_self _, s1.after.free⟩
          have cp := copyParts_apply hg1 (a := m1.next) i1 D.length [] D (v :: E)
            (List.replicate src.length (DVal.scalar 0)) _ (by simpa using hs) rfl (by
              rw [hlen, hs]
              simp) hf rfl sa.after mk
          have hW : ∀ p < m1.next, m1.next = p → (none : Option Nat) = some p := fun p hp he => by omega
          by_cases hhb : shape.hidesBelow D.length = true
          · rw [hhb]
            simp only [Bool.true_or, if_true]
            simp only [List.length_nil, Nat.zero_add, hhb, if_true] at cp
            obtain ⟨m', e⟩ := cp
            refine ⟨m', ?_⟩
            rw [MM.bind_apply, alloc_apply]
            dsimp only
            rw [MM.bind_apply, e]
          · simp only [List.length_nil, Nat.zero_add, hhb] at cp
            simp only [Bool.not_eq_true] at hhb
            rw [hhb]
            simp only [Bool.false_or]
            obtain ⟨m', e, s2, mk2⟩ := cp
            have hR2 : ∃ r2 R2, (List.replicate src.length (DVal.scalar 0)).drop D.length = r2 :: R2 ∧ R2.length = R.length := by
              cases hx : (List.replicate src.length (DVal.scalar 0)).drop D.length with
              | nil =>
                have := congrArg List.length hx
                rw [List.length_drop, hlen, hs] at this
                simp at this
              | cons r2 R2 =>
                refine ⟨r2, R2, rfl, ?_⟩
                have := congrArg List.length hx
                rw [List.length_drop, hlen, hs] at this
                simp at this hR
                omega
            obtain ⟨r2, R2, he, hl2⟩ := hR2
            rw [he] at mk2
            have s2' : MStep (fun p => m1.next = p) h1 _ h1 m' := s2.weaken fun p _ hp => hp.symm
            have k := key' m1.next m' r2 R2 (by simp at hR; omega) s2.after (by simpa using mk2)
            simp only [Bool.true_and] at k
            refine Sim.mono (.left (alloc_apply _ _ _) sa (.left e s2' k)) hW ?_
            rintro x o h' m' - ⟨Y, h1, h2, rfl, h3⟩
            exact ⟨Y, h1, h2, h3, .inr ⟨trivial, s1.next⟩⟩
        · rw [if_neg hsl]
          simp only [Bool.not_eq_true] at hsl
          rw [hsl]
          simp only [Bool.not_false, Bool.true_or, if_true]
          exact .panic
      · simp only [Bool.not_eq_true] at hct
        subst hct
        simp only [Bool.false_eq_true, if_false, Bool.false_and, Bool.or_self]
        have ih := sim_partsLoop (addr := addr) hf ts hq1 (D ++ [v]) (D ++ [v]) E R none h1 m1 i1 s1.after hg1 hs1
          rfl (by simpa using hR) hts1 (fun _ => rfl) (fun a h => by cases h)
        rw [List.length_append] at ih
        refine ih.right ?_
        rintro ⟨ys, cs⟩ o h2 m2 s2 ⟨Y, hY, ho⟩
        refine ⟨v :: Y, ?_, ?_⟩
        · rw [Part.DataElems]
          have := post.same rfl
          exact ⟨this ▸ post.data.mono s2.le, hY⟩
        · cases o with
          | none => exact ⟨trivial, ho.2.1, by rw [ho.2.2]⟩
          | some a =>
            obtain ⟨h3, h4, h5⟩ := ho
            refine ⟨h3, by simpa using h4, .inr ⟨trivial, ?_⟩⟩
            rcases h5 with h | h
            · cases h
            · exact Nat.le_trans s1.next h.2

end Gopoet
