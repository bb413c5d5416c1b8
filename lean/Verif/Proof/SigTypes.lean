import Verif.Proof.SigPrograms
/-!
# What the commands that make types do to memory that stands for values
-/

namespace Gopoet
open MM Imports

section
variable {α β : Type} {h : Part} {ids : Nat → Option ListIds} {p p' : SigPlan} {m : Mem} {i : Imports} {v : SigVals}
  {r : SigRefs}

theorem sim_namedTypeM (a : At h m) (s : Symbol) :
    Sim noAddr (namedTypeM s) (pure (.named s)) i h m fun t w h' _ => h'.Type t w ∧ ∀ q, w ≠ .func q := by
  have ms : MStep noAddr h m (h.add m.next (.named s)) (m.after (.named s)) := a.alloc _
  refine .left (alloc_apply _ _ _) ms (.pure ms.after ?_)
  exact ⟨by simp [Part.Type, Part.add], nofun⟩

theorem sim_lift_ite {p : Prop} [Decidable p] {c : Bool} {x : MM MType} {t : TypeName} (hpc : p ↔ c = true)
    (hx : Sim noAddr x (pure t) i h m fun t w h' _ => h'.Type t w ∧ ∀ q, w ≠ .func q) :
    Sim noAddr (if p then panic else x) (IM.lift (if c = true then .panic else .ok t)) i h m
      fun t w h' _ => h'.Type t w ∧ ∀ q, w ≠ .func q := by
  by_cases hp : p
  · rw [if_pos hp, if_pos (hpc.1 hp)]
    exact ⟨m, rfl⟩
  · rw [if_neg hp, if_neg fun hc => hp (hpc.2 hc)]
    exact hx

theorem follows_basicType (st : Stands m h ids p v r) (g : Growth) (fuel : Nat) (k : ReflectKind) :
    Keeps (p.addType {}) ((SigCmd.basicType k).execM g fuel r) ((SigCmd.basicType k).execV v) i m := by
  refine .type st ?_
  unfold basicTypeM basicType
  by_cases h1 : k = .unsafePointer
  · rw [if_pos h1, if_pos h1]
    exact sim_namedTypeM st.inPart _
  · rw [if_neg h1, if_neg h1]
    by_cases h2 : k.isBasic = true
    · rw [if_pos h2, if_pos h2]
      exact ⟨_, h, m, rfl, .refl st.inPart, by simp [Part.Type], nofun⟩
    · rw [if_neg h2, if_neg h2]
      exact ⟨m, rfl⟩

theorem follows_namedType (st : Stands m h ids p v r) (g : Growth) (fuel : Nat) (s : Symbol) :
    Keeps (p.addType {}) ((SigCmd.namedType s).execM g fuel r) ((SigCmd.namedType s).execV v) i m :=
  .type st (sim_namedTypeM st.inPart s)

theorem follows_pointerType (st : Stands m h ids p v r) (g : Growth) (fuel t : Nat) :
    Keeps (p.addType {}) ((SigCmd.pointerType t).execM g fuel r) ((SigCmd.pointerType t).execV v) i m := by
  refine .bind (sim_type st t) ?_
  rintro ty w h' m' i' - ⟨rfl, rfl, ht, -⟩
  refine .type st (sim_lift_ite (type_nil ht) (.pure st.inPart ?_))
  exact ⟨by simpa [Part.Type] using ht, nofun⟩

theorem follows_sliceType (st : Stands m h ids p v r) (g : Growth) (fuel t : Nat) :
    Keeps (p.addType {}) ((SigCmd.sliceType t).execM g fuel r) ((SigCmd.sliceType t).execV v) i m := by
  refine .bind (sim_type st t) ?_
  rintro ty w h' m' i' - ⟨rfl, rfl, ht, -⟩
  refine .type st (sim_lift_ite (type_nil ht) (.pure st.inPart ?_))
  exact ⟨by simpa [Part.Type] using ht, nofun⟩

theorem follows_arrayType (st : Stands m h ids p v r) (g : Growth) (fuel t : Nat) (n : Int) :
    Keeps (p.addType {}) ((SigCmd.arrayType t n).execM g fuel r) ((SigCmd.arrayType t n).execV v) i m := by
  refine .bind (sim_type st t) ?_
  rintro ty w h' m' i' - ⟨rfl, rfl, ht, -⟩
  refine .type st (sim_lift_ite (by simp [type_nil ht]) (.pure st.inPart ?_))
  exact ⟨by simpa [Part.Type] using ht, nofun⟩

theorem follows_mapType (st : Stands m h ids p v r) (g : Growth) (fuel k e : Nat) :
    Keeps (p.addType {}) ((SigCmd.mapType k e).execM g fuel r) ((SigCmd.mapType k e).execV v) i m := by
  refine .bind (sim_type st k) ?_
  rintro kt kw h' m' i' - ⟨rfl, rfl, hk, -⟩
  refine .bind (sim_type st e) ?_
  rintro ty w h' m' i' - ⟨rfl, rfl, ht, -⟩
  refine .type st (sim_lift_ite (by simp [type_nil ht, type_nil hk]) (.pure st.inPart ?_))
  exact ⟨by simpa [Part.Type] using ⟨ht, hk⟩, nofun⟩

theorem follows_channelType (st : Stands m h ids p v r) (g : Growth) (fuel t : Nat) (d : ChanDir) :
    Keeps (p.addType {}) ((SigCmd.channelType t d).execM g fuel r) ((SigCmd.channelType t d).execV v) i m := by
  refine .bind (sim_type st t) ?_
  rintro ty w h' m' i' - ⟨rfl, rfl, ht, -⟩
  refine .type st (sim_lift_ite (by simp [type_nil ht]) (.pure st.inPart ?_))
  exact ⟨by simpa [Part.Type] using ht, nofun⟩

theorem MM.bind_assoc {α β γ : Type} (x : MM α) (f : α → MM β) (g : β → MM γ) :
    x >>= f >>= g = x >>= fun a => f a >>= g := by
  funext m i
  simp only [MM.bind_apply]
  rcases x m i with ⟨_ | _ | _, m', i'⟩ <;> rfl

/-- What the computation with trees returned. -/
theorem Sim.known {W : Nat → Prop} {x : MM β} {y : IM α} {P : α → β → Part → Mem → Prop} (hx : Sim W x y i h m P) :
    Sim W x y i h m fun a b h' m' => P a b h' m' ∧ ∃ j, y i = (.ok a, j) := by
  unfold Sim at hx ⊢
  rcases hy : y i with ⟨a | _ | _, i'⟩
  · rw [hy] at hx
    obtain ⟨b, h', m', e, s, hp⟩ := hx
    exact ⟨b, h', m', e, s, hp, i', rfl⟩
  · rw [hy] at hx
    exact hx
  · rw [hy] at hx
    exact hx

/-- Only types of functions become types of functions. -/
theorem qualifyType_func {reg : Bool} {t : TypeName} {i j : Imports} {sig' : Signature} {c : Bool}
    (hy : qualifyType reg t i = (.ok (.func sig', c), j)) : ∃ sig, t = .func sig := by
  cases t with
  | func sig => exact ⟨sig, rfl⟩
  | nil =>
    rw [qualifyType] at hy
    cases hy
  | basic k =>
    rw [qualifyType] at hy
    cases hy
  | named s =>
    rw [qualifyType] at hy
    obtain ⟨y, i1, h1, h2⟩ := IM.bind_eq_ok hy
    split at h2 <;> cases h2
  | ptr e =>
    rw [qualifyType] at hy
    obtain ⟨⟨e', c'⟩, i1, h1, h2⟩ := IM.bind_eq_ok hy
    dsimp only at h2
    split at h2
    · obtain ⟨y, i2, h3, h4⟩ := IM.bind_eq_ok h2
      cases h4
      have := congrArg Prod.fst h3
      simp only [IM.lift, pointerType] at this
      split at this <;> cases this
    · cases h2
  | slice e =>
    rw [qualifyType] at hy
    obtain ⟨⟨e', c'⟩, i1, h1, h2⟩ := IM.bind_eq_ok hy
    dsimp only at h2
    split at h2
    · obtain ⟨y, i2, h3, h4⟩ := IM.bind_eq_ok h2
      cases h4
      have := congrArg Prod.fst h3
      simp only [IM.lift, sliceType] at this
      split at this <;> cases this
    · cases h2
  | array e n =>
    rw [qualifyType] at hy
    obtain ⟨⟨e', c'⟩, i1, h1, h2⟩ := IM.bind_eq_ok hy
    dsimp only at h2
    split at h2
    · obtain ⟨y, i2, h3, h4⟩ := IM.bind_eq_ok h2
      cases h4
      have := congrArg Prod.fst h3
      simp only [IM.lift, arrayType] at this
      split at this <;> cases this
    · cases h2
  | map e k =>
    rw [qualifyType] at hy
    obtain ⟨⟨e', c'⟩, i1, h1, h2⟩ := IM.bind_eq_ok hy
    obtain ⟨⟨k', c''⟩, i1, h1, h2⟩ := IM.bind_eq_ok h2
    dsimp only at h2
    split at h2
    · obtain ⟨y, i2, h3, h4⟩ := IM.bind_eq_ok h2
      cases h4
      have := congrArg Prod.fst h3
      simp only [IM.lift, mapType] at this
      split at this <;> cases this
    · cases h2
  | chan e d =>
    rw [qualifyType] at hy
    obtain ⟨⟨e', c'⟩, i1, h1, h2⟩ := IM.bind_eq_ok hy
    dsimp only at h2
    split at h2
    · obtain ⟨y, i2, h3, h4⟩ := IM.bind_eq_ok h2
      cases h4
      have := congrArg Prod.fst h3
      simp only [IM.lift, channelType] at this
      generalize (if d = 0 then bothDir else d) = d' at this
      split at this <;> cases this
    · cases h2
  | struct fs =>
    rw [qualifyType] at hy
    obtain ⟨⟨e', c'⟩, i1, h1, h2⟩ := IM.bind_eq_ok hy
    dsimp only at h2
    split at h2 <;> cases h2
  | interface ms es =>
    rw [qualifyType] at hy
    obtain ⟨⟨e', c'⟩, i1, h1, h2⟩ := IM.bind_eq_ok hy
    obtain ⟨⟨k', c''⟩, i1, h1, h2⟩ := IM.bind_eq_ok h2
    dsimp only at h2
    split at h2 <;> cases h2

theorem follows_ensureType (st : Stands m h ids p v r) (g : Growth) (fuel t : Nat)
    (hf : ∀ ty, v.types[t]? = some ty → sizeOf ty < fuel) :
    Keeps (p.addType (p.type t)) ((SigCmd.ensureType t).execM g fuel r) ((SigCmd.ensureType t).execV v) i m := by
  refine .bind (sim_type st t) ?_
  rintro ty w h' m' i' - ⟨rfl, rfl, ht, hty, -, hq⟩
  have hsz := hf ty hty
  by_cases hfun : ∃ a, w = .func a
  · obtain ⟨a, rfl⟩ := hfun
    have hida := hq a rfl
    cases ty <;> simp only [Part.Type] at ht
    rename_i sig
    obtain ⟨s, ha, hsg⟩ := ht
    obtain ⟨fuel, rfl⟩ : ∃ n, fuel = n + 1 := ⟨fuel - 1, by omega⟩
    simp at hsz
    have e1 := sizeOf_sig_args sig
    have e2 := sizeOf_sig_results sig
    have hs := st.inPart.le.get ha
    have sim := sim_qualifySignatureM_from (r := true) (q := qualifyTypeM true fuel) (i := i')
      (fun x hx => sim_qualifyTypeM true fuel _ (by
        have := sizeOf_arg hx
        omega))
      (fun x hx => sim_qualifyTypeM true fuel _ (by
        have := sizeOf_arg hx
        omega)) st.inPart hs (st.inPart.lt _ _ ha) hsg
    unfold Sim at sim
    unfold Keeps
    simp only [ensureTypeImported, ensureTypeImportedM, qualifyTypeM, qualifyType, MM.bind_apply, IM.bind_apply]
    rcases hy : qualifySignature true sig i' with ⟨⟨sig', c⟩ | _ | _, j⟩
    · rw [hy] at sim
      obtain ⟨b, h1, m1, e, ms, hc⟩ := sim
      rw [e]
      dsimp only at hc ⊢
      rcases hc with ⟨rfl, rfl, hs1⟩ | ⟨hne, rfl, hge, s1, h2, hs1, fa, fr, htwo⟩
      · refine ⟨r.addType (.func b), h1, ids, m1, by rw [if_neg (by simp)]; rfl, (st.step ms).addType ?_ fun q hq => ?_⟩
        · rw [Part.Type]
          exact ⟨s, ms.le.get ha, hsg.mono ms.le _ _⟩
        · cases hq
          exact hida
      · rw [if_pos hne]
        obtain ⟨k1, k2, k3⟩ := st.qualified hida hs ms fa fr (sig_elems hs1) htwo
        have hb := ms.after.le.get h2
        have hnone : ids b = none := st.unheld hge
        have st1 := (st.step ms).hold (a := b) (x := p.type t) hnone (ms.after.lt _ _ h2) hb k1
          (fun a' x' s' b1 b2 hx' hs' h0 h0' e' hf1 hf2 => by
            obtain ⟨hlt', s'', hs'', h6⟩ := st.held a' x' hx'
            rw [ms.same a' hlt' id, hs''] at hs'
            cases hs'
            rcases k2 b1 h0 with h7 | ⟨h7, h8⟩
            · obtain ⟨E, he⟩ := (h6 b2).elems
              have := elems_lt st.inPart he h0'
              omega
            · exact st.apart a a' _ x' s s' b1 b2 hida hx' hs hs'' h7 h0' (h8.symm.trans e') hf1 hf2) k3
        have sim2 := sim_funcTypeFromSigM (i := j) ms.after h2 hs1
        unfold Sim at sim2
        simp only [if_true, IM.bind_apply]
        rcases hy2 : IM.lift (funcTypeFromSig sig') j with ⟨ty2 | _ | _, j2⟩
        · rw [hy2] at sim2
          obtain ⟨w2, h3, m3, e3, ms3, rfl, ht3⟩ := sim2
          rw [e3]
          refine ⟨_, h3, _, m3, rfl, (st1.step ms3).addType ht3 fun q hq => ?_⟩
          cases hq
          exact if_pos rfl
        · rw [hy2] at sim2
          obtain ⟨m3, e3⟩ := sim2
          exact ⟨m3, by rw [e3]⟩
        · rw [hy2] at sim2
          obtain ⟨m3, e3⟩ := sim2
          exact ⟨m3, by rw [e3]⟩
    · rw [hy] at sim
      obtain ⟨m1, e⟩ := sim
      exact ⟨m1, by rw [e]⟩
    · rw [hy] at sim
      obtain ⟨m1, e⟩ := sim
      exact ⟨m1, by rw [e]⟩
  · have sim := (sim_qualifyTypeM true fuel ty hsz w h' m' i' st.inPart ht : Sim noAddr _ _ _ _ _ _).known
    refine .bind (P := fun t w h' _ => h'.Type t w ∧ ∀ q, w ≠ .func q) (sim.right fun y w' h1 m1 _ hP => ⟨hP.1.1, ?_⟩)
      fun _ _ _ _ _ ms ht => .pure ((st.step ms).addType ht.1 fun q hq => absurd hq (ht.2 q))
    obtain ⟨⟨hP, -⟩, j, hy⟩ := hP
    obtain ⟨t', c⟩ := y
    rintro q rfl
    cases t' <;> simp only [Part.Type] at hP
    obtain ⟨sig, rfl⟩ := qualifyType_func hy
    cases w <;> simp only [Part.Type] at ht
    exact hfun ⟨_, rfl⟩

/-! ## Structs and interfaces -/

theorem sim_fields (st : Stands m h ids p v r) : ∀ (fs : List (GoString × Nat × GoString)) (i : Imports),
    Sim noAddr (r.fields fs) (IM.lift (v.fields fs)) i h m fun l E h' m' => h' = h ∧ m' = m ∧ h.Fields l E
  | [], i => ⟨[], h, m, rfl, .refl st.inPart, rfl, rfl, by simp [Part.Fields]⟩
  | (name, t, tag) :: fs, i => by
    rw [SigRefs.fields, SigVals.fields]
    have h1 := sim_type (i := i) st t
    have h2 := sim_fields st fs i
    unfold Sim IM.lift at h1 h2 ⊢
    dsimp only at h1 h2 ⊢
    cases ht : v.type t with
    | ok ty =>
      rw [ht] at h1
      obtain ⟨w, h', m', e, -, rfl, rfl, hw, -⟩ := h1
      cases hl : v.fields fs with
      | ok l =>
        rw [hl] at h2
        obtain ⟨E, h'', m'', e', -, rfl, rfl, hE⟩ := h2
        refine ⟨.field name w tag :: E, h'', m'', ?_, .refl st.inPart, rfl, rfl, ?_⟩
        · simp only [MM.bind_apply, e, e']
          rfl
        · rw [Part.Fields]
          exact ⟨rfl, rfl, hw, hE⟩
      | panic =>
        rw [hl] at h2
        obtain ⟨m'', e'⟩ := h2
        exact ⟨m'', by simp only [MM.bind_apply, e, e']⟩
      | hang =>
        rw [hl] at h2
        obtain ⟨m'', e'⟩ := h2
        exact ⟨m'', by simp only [MM.bind_apply, e, e']⟩
    | panic =>
      rw [ht] at h1
      obtain ⟨m', e⟩ := h1
      exact ⟨m', by simp only [MM.bind_apply, e]⟩
    | hang =>
      rw [ht] at h1
      obtain ⟨m', e⟩ := h1
      exact ⟨m', by simp only [MM.bind_apply, e]⟩

theorem sim_methods (st : Stands m h ids p v r) : ∀ (ms : List (GoString × Nat)) (i : Imports),
    Sim noAddr (r.methods ms) (IM.lift (v.methods ms)) i h m fun l E h' m' => h' = h ∧ m' = m ∧ h.Methods l E
  | [], i => ⟨[], h, m, rfl, .refl st.inPart, rfl, rfl, by simp [Part.Methods]⟩
  | (name, o) :: ms, i => by
    rw [SigRefs.methods, SigVals.methods]
    have h1 := sim_obj (i := i) st o
    have h2 := sim_methods st ms i
    unfold Sim IM.lift at h1 h2 ⊢
    dsimp only at h1 h2 ⊢
    cases ht : v.sig o with
    | ok sig =>
      rw [ht] at h1
      obtain ⟨a, h', m', e, -, rfl, rfl, hsig, ha⟩ := h1
      obtain ⟨sig', x, f, s, hsig', -, -, -, -, hs, hsg, -⟩ := st.at_obj ha
      rw [hsig] at hsig'
      cases hsig'
      have e1 := loadSig_of hs i
      cases hl : v.methods ms with
      | ok l =>
        rw [hl] at h2
        obtain ⟨E, h'', m'', e', -, rfl, rfl, hE⟩ := h2
        refine ⟨.method name s :: E, h'', m'', ?_, .refl st.inPart, rfl, rfl, ?_⟩
        · simp only [MM.bind_apply, e, e1, e']
          rfl
        · rw [Part.Methods]
          exact ⟨rfl, hsg, hE⟩
      | panic =>
        rw [hl] at h2
        obtain ⟨m'', e'⟩ := h2
        exact ⟨m'', by simp only [MM.bind_apply, e, e1, e']⟩
      | hang =>
        rw [hl] at h2
        obtain ⟨m'', e'⟩ := h2
        exact ⟨m'', by simp only [MM.bind_apply, e, e1, e']⟩
    | panic =>
      rw [ht] at h1
      obtain ⟨m', e⟩ := h1
      exact ⟨m', by simp only [MM.bind_apply, e]⟩
    | hang =>
      rw [ht] at h1
      obtain ⟨m', e⟩ := h1
      exact ⟨m', by simp only [MM.bind_apply, e]⟩

theorem follows_structType (st : Stands m h ids p v r) (g : Growth) (fuel : Nat)
    (fs : List (GoString × Nat × GoString)) :
    Keeps (p.addType {}) ((SigCmd.structType fs).execM g fuel r) ((SigCmd.structType fs).execV v) i m := by
  refine .bind (sim_fields st fs i) ?_
  rintro l E h' m' i' - ⟨rfl, rfl, hl⟩
  have s1 : MStep noAddr h' m' (h'.add m'.next (.array E)) (m'.after (.array E)) := st.inPart.alloc _
  refine .left (alloc_apply _ _ _) ?_
  have s2 : MStep noAddr _ _ _ _ := s1.after.alloc (.struct ⟨m'.next, 0, E.length⟩)
  refine .left (alloc_apply _ _ _) (.pure (((st.step s1).step s2).addType ?_ nofun))
  rw [Part.Type]
  exact ⟨_, E, by simp [Part.add], Part.elems_mono s2.le (elems_whole h' m'.next E), hl.mono (s1.le.trans s2.le) _ _⟩

theorem follows_interfaceType (st : Stands m h ids p v r) (g : Growth) (fuel : Nat)
    (ms : List (GoString × Nat)) (es : List Symbol) :
    Keeps (p.addType {}) ((SigCmd.interfaceType ms es).execM g fuel r) ((SigCmd.interfaceType ms es).execV v) i m := by
  refine .bind (sim_methods st ms i) ?_
  rintro l E h' m' i' - ⟨rfl, rfl, hl⟩
  have s1 : MStep noAddr h' m' (h'.add m'.next (.array E)) (m'.after (.array E)) := st.inPart.alloc _
  refine .left (alloc_apply _ _ _) ?_
  have s2 : MStep noAddr _ _ _ _ := s1.after.alloc (.array (es.map .sym))
  refine .left (alloc_apply _ _ _) ?_
  have s3 : MStep noAddr _ _ _ _ := s2.after.alloc
    (.interface ⟨m'.next, 0, E.length⟩ ⟨(m'.after (.array E)).next, 0, es.length⟩)
  refine .left (alloc_apply _ _ _) (.pure ((((st.step s1).step s2).step s3).addType ?_ nofun))
  rw [Part.Type]
  refine ⟨_, _, E, es.map .sym, by simp [Part.add]; rfl,
    Part.elems_mono (s2.le.trans s3.le) (elems_whole h' m'.next E), hl.mono (s1.le.trans (s2.le.trans s3.le)) _ _,
    Part.elems_mono s3.le ?_, syms_map es⟩
  have := elems_whole (h'.add m'.next (.array E)) (m'.after (.array E)).next (es.map .sym)
  rwa [List.length_map] at this

/-! ## Types of functions and methods -/

/-- A type is going to have the memory of a signature. -/
theorem Stands.freeze (st : Stands m h ids p v r) {k a : Nat} {s : MSig} {x : ListIds} (ha : r.objs[k]? = some a)
    (hx : p.sig k = (x, f)) (hs : m.cells a = some (.sig s)) :
    ∃ h', h.Le h' ∧ h' a = some (.sig s) ∧ Stands m h' ids { p with sigs := p.sigs.set k (x, true) } v r := by
  obtain ⟨sig, x', f', s', hsig, hx', hpx, hida, hlt, hs', hsg, hnone, hheld⟩ := st.at_obj ha
  rw [hs] at hs'
  cases hs'
  rw [hx] at hpx
  cases hpx
  have hklen : k < p.sigs.length := (List.getElem?_eq_some_iff.1 hx').1
  have hsigk : ∀ (k' : Nat), (p.sigs.set k (x, true))[k']? = if k' = k then some (x, true) else p.sigs[k']? := fun k' => by
    by_cases e : k' = k
    · subst e
      rw [if_pos rfl, List.getElem?_set_self hklen]
    · rw [if_neg e, List.getElem?_set_ne (Ne.symm e)]
  have main : ∀ h', h.Le h' → At h' m → h' a = some (.sig s) → (∀ q, q ≠ a → h' q = h q) →
      (f = false ∨ h' = h) → Stands m h' ids { p with sigs := p.sigs.set k (x, true) } v r := by
    intro h' le a' hda hother hff
    refine ⟨a', st.len, by simpa using st.planLen, ?_, ?_, ?_, st.apart, st.typesLen,
      fun k t w ht hw => Part.Type.mono le _ _ (st.types k t w ht hw), st.funcs, st.used⟩
    · intro k1 k2 c y h1 h2 h3
      rw [hsigk] at h3
      by_cases e : k1 = k
      · rw [if_pos e] at h3
        cases h3
      · rw [if_neg e] at h3
        exact st.inj k1 k2 c y h1 h2 h3
    · intro k' c sig' y f1 hc hsig' hy
      rw [hsigk] at hy
      by_cases e : k' = k
      · subst e
        rw [ha] at hc
        cases hc
        rw [if_pos rfl] at hy
        cases hy
        rw [hsig] at hsig'
        cases hsig'
        exact ⟨hida, s, hs, hsg.mono le _ _, hda⟩
      · rw [if_neg e] at hy
        obtain ⟨g1, s', g2, g3, g4⟩ := st.obj k' c sig' y f1 hc hsig' hy
        refine ⟨g1, s', g2, g3.mono le _ _, ?_⟩
        rcases hff with rfl | rfl
        · have hne : c ≠ a := by
            rintro rfl
            exact e (st.inj k k' c x ha hc hx').symm
          exact (hother c hne).trans g4
        · exact g4
    · intro c y hc
      obtain ⟨h1, s', h2, h3⟩ := st.held c y hc
      refine ⟨h1, s', h2, fun b => ?_⟩
      obtain ⟨E, he⟩ := (h3 b).elems
      refine ⟨⟨E, Part.elems_mono le he⟩, (h3 b).zero, (h3 b).lt, fun hf h0 l hl => ?_⟩
      have : (s'.slot b).arr ≠ a := by
        rintro e
        rw [e, hda] at hl
        cases hl
      rw [hother _ this] at hl
      exact (h3 b).ends hf h0 l hl
  cases f with
  | true => exact ⟨h, .refl h, hnone, main h (.refl h) st.inPart hnone (fun _ _ => rfl) (.inr rfl)⟩
  | false =>
    have le := Part.le_add (.sig s) hnone
    exact ⟨h.add a (.sig s), le, by simp [Part.add],
      main _ le (st.inPart.join hs hlt) (by simp [Part.add]) (fun q hq => by simp [Part.add, hq]) (.inl rfl)⟩

/-- The last step in making the type of a function of a signature in the part. -/
theorem Keeps.func (st : Stands m h ids p v r) {a : Nat} {s : MSig} {sig : Signature} {x : ListIds}
    (ha : h a = some (.sig s)) (hsg : h.Sig sig s) (hx : ids a = some x) :
    Keeps (p.addType x) (funcTypeFromSigM a >>= fun w => Pure.pure (r.addType w))
      (IM.lift (funcTypeFromSig sig) >>= fun t => Pure.pure (v.addType t)) i m :=
  .bind (sim_funcTypeFromSigM st.inPart ha hsg) fun _ _ _ _ _ ms ht => .pure ((st.step ms).addType ht.2 fun q hq => by
    have := ht.1.symm.trans hq
    cases this
    exact hx)

theorem follows_funcType (st : Stands m h ids p v r) (g : Growth) (fuel o : Nat) :
    Keeps { p.addType (p.sig o).1 with sigs := p.sigs.set o ((p.sig o).1, true) }
      ((SigCmd.funcType o).execM g fuel r) ((SigCmd.funcType o).execV v) i m := by
  refine .bind (sim_obj st o) ?_
  rintro sig a h' m' i' - ⟨rfl, rfl, hsig, ha⟩
  obtain ⟨sig', x, f, s, hsig', hx, hpx, hida, hlt, hs, hsg, hfr, hheld⟩ := st.at_obj ha
  rw [hsig] at hsig'
  cases hsig'
  obtain ⟨h1, le, hp1, st1⟩ := st.freeze ha hpx hs
  rw [hpx]
  exact Keeps.func st1 hp1 (hsg.mono le _ _) hida

/-- A list that is in an array of its own. -/
theorem Held.whole {p : SigPlan} {n a : Nat} {l : List Elem} (hn : 0 < n) (hlt : n < p.next)
    (ha : h a = some (.array l)) : Held h p n ⟨a, 0, l.length⟩ where
  elems := by
    unfold Part.elems
    by_cases h0 : l.length = 0
    · exact ⟨[], if_pos h0⟩
    · refine ⟨l, ?_⟩
      dsimp only
      rw [if_neg h0, ha]
      simp
  zero := fun hz => by omega
  lt := hlt
  ends := fun _ _ l' hl' => by
    dsimp only at hl'
    rw [ha] at hl'
    cases hl'
    simp

theorem follows_methodType (st : Stands m h ids p v r) (hp : 0 < p.next) (g : Growth) (fuel o : Nat) (recv : ReceiverSpec)
    (pkg : Option Package) :
    Keeps { p.addType ⟨p.next, (p.sig o).1.results⟩ with next := p.next + 1 }
      ((SigCmd.methodType o recv pkg).execM g fuel r) ((SigCmd.methodType o recv pkg).execV v) i m := by
  refine .bind (sim_obj st o) ?_
  rintro sig a h' m' i' - ⟨rfl, rfl, hsig, ha⟩
  obtain ⟨sig', x, f, s, hsig', hx, hpx, hida, hlt, hs, hsg, hfr, hheld⟩ := st.at_obj ha
  rw [hsig] at hsig'
  cases hsig'
  rw [hpx]
  cases pkg with
  | none => exact ⟨m', rfl⟩
  | some pkg =>
    dsimp only
    obtain ⟨args, results, va⟩ := sig
    rw [Part.Sig] at hsg
    obtain ⟨hva, E, E', h1, h2, h3, h4⟩ := hsg
    unfold funcToTypeNameM
    have s1 : MStep noAddr h' m' (h'.add m'.next (.named { name := recv.type, package := pkg }))
        (m'.after (.named { name := recv.type, package := pkg })) := st.inPart.alloc _
    rw [MM.bind_assoc]
    refine .left (b := .named m'.next) (m' := m'.after (.named { name := recv.type, package := pkg })) rfl ?_
    rw [MM.bind_assoc]
    refine .left (b := if recv.isPointer then .ptr (.named m'.next) else .named m'.next)
      (m' := m'.after (.named { name := recv.type, package := pkg })) ?_ ?_
    · cases recv.isPointer <;> rfl
    rw [MM.bind_assoc]
    refine .left (loadSig_of ((s1.same a hlt id).trans hs) _) ?_
    rw [MM.bind_assoc]
    refine .left (loadSlice_of_at s1.after (Part.elems_mono s1.le h1) _) ?_
    have hEl := Part.elems_length h1
    generalize hrw : (if recv.isPointer then MType.ptr (.named m'.next) else .named m'.next) = rw
    have hrt : (h'.add m'.next (.named { name := recv.type, package := pkg })).Type
        (if recv.isPointer then .ptr (.named { name := recv.type, package := pkg })
          else .named { name := recv.type, package := pkg }) rw := by
      subst hrw
      cases recv.isPointer <;> simp [Part.Type, Part.add]
    generalize hm1 : m'.after (.named { name := recv.type, package := pkg }) = m1 at s1
    generalize hh1 : h'.add m'.next (.named { name := recv.type, package := pkg }) = h1' at s1 hrt
    have s2 : MStep noAddr h1' m1 (h1'.add m1.next (.array (.arg recv.name rw :: E)))
      (m1.after (.array (.arg recv.name rw :: E))) := s1.after.alloc (.array (.arg recv.name rw :: E))
    rw [MM.bind_assoc]
    refine .left (alloc_apply _ _ _) ?_
    have harr : (h1'.add m1.next (.array (.arg recv.name rw :: E))) m1.next = some (.array (.arg recv.name rw :: E)) := by
      simp [Part.add]
    generalize hm2 : m1.after (.array (.arg recv.name rw :: E)) = m2 at s2
    generalize hh2 : h1'.add m1.next (.array (.arg recv.name rw :: E)) = h2' at s2 harr
    generalize hs' : (⟨⟨m1.next, 0, s.args.len + 1⟩, s.results, s.isVariadic⟩ : MSig) = s'
    have s3 : MStep noAddr h2' m2 (h2'.add m2.next (.sig s')) (m2.after (.sig s')) := s2.after.alloc (.sig s')
    rw [MM.bind_assoc]
    refine .left (alloc_apply _ _ _) ?_
    have hsig' : (h2'.add m2.next (.sig s')) m2.next = some (.sig s') := by simp [Part.add]
    have hcell : (m2.after (.sig s')).cells m2.next = some (.sig s') := by simp [Mem.after]
    generalize hm3 : m2.after (.sig s') = m3 at s3 hcell
    generalize hh3 : h2'.add m2.next (.sig s') = h3' at s3 hsig'
    have le23 := s2.le.trans s3.le
    have le := s1.le.trans le23
    have st3 := (((st.step s1).step s2).step s3).later (n := p.next + 1) (Nat.le_succ _)
    have harr3 : h3' m1.next = some (.array (.arg recv.name rw :: E)) :=
      (s3.old _ (s2.after.lt _ _ harr)).trans harr
    have hlen : s.args.len + 1 = (Elem.arg recv.name rw :: E).length := by simp [hEl]
    have hres : s'.slot true = s.results := by rw [← hs']; rfl
    have hargs : s'.slot false = ⟨m1.next, 0, (Elem.arg recv.name rw :: E).length⟩ := by rw [← hs', ← hlen]; rfl
    have hn1 : m'.next ≤ m1.next := s1.next
    have hlt3 : m2.next < m3.next := s3.after.lt _ _ hsig'
    have hcase : ∀ (P : Bool → Prop), P false → P true → ∀ c, P c := fun P h1 h2 c => by cases c <;> assumption
    have old : ∀ a' x' t b', ids a' = some x' → m3.cells a' = some (.sig t) → (t.slot b').len ≠ 0 →
        m'.cells a' = some (.sig t) ∧ (t.slot b').arr < m'.next := fun a' x' t b' hx' ht h0 => by
      obtain ⟨g1, t', g2, g3⟩ := st.held a' x' hx'
      have e := (((s1.trans s2).trans s3).same a' g1 id)
      rw [e, g2] at ht
      cases ht
      obtain ⟨E, he⟩ := (g3 b').elems
      exact ⟨g2, elems_lt st.inPart he h0⟩
    have st4 := st3.hold (a := m2.next) (s := s') (x := ⟨p.next, x.results⟩)
      (st.unheld (Nat.le_trans s1.next s2.next)) hlt3 hcell (hcase _ ?_ ?_) ?_ ?_
    · refine Keeps.func st4 hsig' ?_ (if_pos rfl)
      rw [← hs', Part.Sig]
      refine ⟨hva, .arg recv.name rw :: E, E', ?_, ?_, Part.elems_mono le h3, h4.mono le _ _⟩
      · refine Part.elems_mono s3.le ?_
        rw [← hEl, ← hh2]
        exact elems_whole _ _ _
      · rw [Part.Args]
        exact ⟨rfl, Part.Type.mono le23 _ _ hrt, h2.mono le _ _⟩
    · rw [hargs]
      exact Held.whole (p := { p with next := p.next + 1 }) hp (Nat.lt_succ_self _) harr3
    · rw [hres]
      have hh := (hheld true).step st.inPart le fun q hq _ _ _ => ((s1.trans s2).trans s3).old q hq
      exact ⟨hh.elems, hh.zero, Nat.lt_succ_of_lt hh.lt, hh.ends⟩
    · intro a' x' t b b' hx' ht h0 h0' e hf hf'
      obtain ⟨g1, g2⟩ := old a' x' t b' hx' ht h0'
      cases b with
      | false =>
        rw [hargs] at e
        dsimp only at e
        omega
      | true =>
        rw [hres] at h0 e
        exact st.apart a a' x x' s t true b' hida hx' hs g1 h0 h0' e hf hf'
    · intro h0 h0' e
      rw [hargs, hres] at e
      rw [hres] at h0'
      have := elems_lt st.inPart h3 h0'
      dsimp only at e
      omega

theorem follows_interfaceMethodType (st : Stands m h ids p v r) (hp : 0 < p.next) (g : Growth) (fuel o t : Nat) :
    Keeps { p.addType ⟨p.next, p.next + 1⟩ with next := p.next + 2 }
      ((SigCmd.interfaceMethodType o t).execM g fuel r) ((SigCmd.interfaceMethodType o t).execV v) i m := by
  refine .bind (sim_obj st o) ?_
  rintro sig a h' m' i' - ⟨rfl, rfl, hsig, ha⟩
  refine .bind (sim_type st t) ?_
  rintro ty w h' m' i' - ⟨rfl, rfl, ht, -⟩
  obtain ⟨sig', x, f, s, hsig', hx, hpx, hida, hlt, hs, hsg, hfr, hheld⟩ := st.at_obj ha
  rw [hsig] at hsig'
  cases hsig'
  obtain ⟨args, results, va⟩ := sig
  rw [Part.Sig] at hsg
  obtain ⟨hva, E, E', h1, h2, h3, h4⟩ := hsg
  unfold methodToTypeNameM
  have hEl := Part.elems_length h1
  have hEl' := Part.elems_length h3
  rw [MM.bind_assoc]
  refine .left (loadSig_of hs _) ?_
  rw [MM.bind_assoc]
  refine .left (loadSlice_of_at st.inPart h1 _) ?_
  have s1 : MStep noAddr h' m' (h'.add m'.next (.array (.arg [] w :: E))) (m'.after (.array (.arg [] w :: E))) :=
    st.inPart.alloc _
  rw [MM.bind_assoc]
  refine .left (alloc_apply _ _ _) ?_
  have harr : (h'.add m'.next (.array (.arg [] w :: E))) m'.next = some (.array (.arg [] w :: E)) := by simp [Part.add]
  generalize hm1 : m'.after (.array (.arg [] w :: E)) = m1 at s1
  generalize hh1 : h'.add m'.next (.array (.arg [] w :: E)) = h1' at s1 harr
  rw [MM.bind_assoc]
  refine .left (loadSlice_of_at s1.after (Part.elems_mono s1.le h3) _) ?_
  have s2 : MStep noAddr h1' m1 (h1'.add m1.next (.array E')) (m1.after (.array E')) := s1.after.alloc (.array E')
  rw [MM.bind_assoc]
  refine .left (alloc_apply _ _ _) ?_
  have harr' : (h1'.add m1.next (.array E')) m1.next = some (.array E') := by simp [Part.add]
  generalize hm2 : m1.after (.array E') = m2 at s2
  generalize hh2 : h1'.add m1.next (.array E') = h2' at s2 harr'
  generalize hs' : (⟨⟨m'.next, 0, s.args.len + 1⟩, ⟨m1.next, 0, s.results.len⟩, s.isVariadic⟩ : MSig) = s'
  have s3 : MStep noAddr h2' m2 (h2'.add m2.next (.sig s')) (m2.after (.sig s')) := s2.after.alloc (.sig s')
  rw [MM.bind_assoc]
  refine .left (alloc_apply _ _ _) ?_
  have hsig' : (h2'.add m2.next (.sig s')) m2.next = some (.sig s') := by simp [Part.add]
  have hcell : (m2.after (.sig s')).cells m2.next = some (.sig s') := by simp [Mem.after]
  generalize hm3 : m2.after (.sig s') = m3 at s3 hcell
  generalize hh3 : h2'.add m2.next (.sig s') = h3' at s3 hsig'
  have le23 := s2.le.trans s3.le
  have le := s1.le.trans le23
  have st3 := (((st.step s1).step s2).step s3).later (n := p.next + 2) (Nat.le_add_right _ _)
  have harr2 : h2' m'.next = some (.array (.arg [] w :: E)) := (s2.old _ (s1.after.lt _ _ harr)).trans harr
  have harr3 : h3' m'.next = some (.array (.arg [] w :: E)) := (s3.old _ (s2.after.lt _ _ harr2)).trans harr2
  have harr3' : h3' m1.next = some (.array E') := (s3.old _ (s2.after.lt _ _ harr')).trans harr'
  have hlen : s.args.len + 1 = (Elem.arg [] w :: E).length := by simp [hEl]
  have hargs : s'.slot false = ⟨m'.next, 0, (Elem.arg [] w :: E).length⟩ := by rw [← hs', ← hlen]; rfl
  have hres : s'.slot true = ⟨m1.next, 0, E'.length⟩ := by rw [← hs', hEl']; rfl
  have hn1 : m'.next < m1.next := s1.after.lt _ _ harr
  have hlt3 : m2.next < m3.next := s3.after.lt _ _ hsig'
  have hcase : ∀ (P : Bool → Prop), P false → P true → ∀ c, P c := fun P h1 h2 c => by cases c <;> assumption
  have old : ∀ a' x' t b', ids a' = some x' → m3.cells a' = some (.sig t) → (t.slot b').len ≠ 0 →
      (t.slot b').arr < m'.next := fun a' x' t b' hx' ht h0 => by
    obtain ⟨g1, t', g2, g3⟩ := st.held a' x' hx'
    have e := (((s1.trans s2).trans s3).same a' g1 id)
    rw [e, g2] at ht
    cases ht
    obtain ⟨E, he⟩ := (g3 b').elems
    exact elems_lt st.inPart he h0
  have st4 := st3.hold (a := m2.next) (s := s') (x := ⟨p.next, p.next + 1⟩)
    (st.unheld (Nat.le_trans s1.next s2.next)) hlt3 hcell (hcase _ ?_ ?_) ?_ ?_
  · refine Keeps.func st4 hsig' ?_ (if_pos rfl)
    rw [← hs', Part.Sig]
    refine ⟨hva, .arg [] w :: E, E', ?_, ?_, ?_, h4.mono le _ _⟩
    · refine Part.elems_mono le23 ?_
      rw [← hEl, ← hh1]
      exact elems_whole _ _ _
    · rw [Part.Args]
      exact ⟨rfl, Part.Type.mono le _ _ ht, h2.mono le _ _⟩
    · refine Part.elems_mono s3.le ?_
      rw [← hEl', ← hh2]
      exact elems_whole _ _ _
  · rw [hargs]
    exact Held.whole (p := { p with next := p.next + 2 }) hp (Nat.lt_succ_of_lt (Nat.lt_succ_self _)) harr3
  · rw [hres]
    exact Held.whole (p := { p with next := p.next + 2 }) (Nat.succ_pos _) (Nat.lt_succ_self _) harr3'
  · intro a' x' t b b' hx' ht h0 h0' e hf hf'
    have g2 := old a' x' t b' hx' ht h0'
    cases b with
    | false =>
      rw [hargs] at e
      dsimp only at e
      omega
    | true =>
      rw [hres] at e
      dsimp only at e
      omega
  · intro h0 h0' e
    rw [hargs, hres] at e
    dsimp only at e
    omega

end

end Gopoet
