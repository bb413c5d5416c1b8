import Verif.Proof.SameLemmas
import Verif.Spec.FirstMentions
/-! Two runs of the qualification pass on heaps that differ in the order of map entries, with the same imports in the
end, or with the packages in the same order. -/

namespace Gopoet
open Imports

theorem SameTables.symm {i j : Imports} (h : SameTables i j) : SameTables j i :=
  ⟨h.own.symm, fun p => (h.byPath p).symm, fun p => (h.byName p).symm⟩

/-! ### Registering the same packages in another order -/

theorem registerAll_cons (i : Imports) (k : Package) (l : List Package) :
    i.after (registerAll (k :: l)) = (i.after (registerAll [k])).after (registerAll l) := by
  simp [registerAll, Imports.after]

theorem registerAll_of_known {i : Imports} {k : Package}
    (hk : k.importPath = i.pkgPath ∨ i.importsByPath.get k.importPath ≠ none) : i.after (registerAll [k]) = i := by
  have : i.after (registerAll [k]) = (registerImportForPackage k i).2 := by simp [registerAll, Imports.after, Call.exec]
  rw [this, registerImportForPackage, registerImport]
  by_cases ho : k.importPath = i.pkgPath
  · rw [prefixForPackage_own ho]
  · rcases hk with hk | hk
    · exact absurd hk ho
    · cases hg : i.importsByPath.get k.importPath with
      | none => exact absurd hg hk
      | some d => rw [prefixForPackage_known ho hg]

theorem known_after {i : Imports} {path : GoString} (hk : path = i.pkgPath ∨ i.importsByPath.get path ≠ none)
    (l : List Package) : path = (i.after (registerAll l)).pkgPath ∨ (i.after (registerAll l)).importsByPath.get path ≠ none := by
  have e := (after_registerAll i l).ext
  rcases hk with hk | hk
  · exact .inl (hk.trans e.own.symm)
  · right
    cases hg : i.importsByPath.get path with
    | none => exact absurd hg hk
    | some d => rw [e.keeps _ _ hg]; simp

theorem registerAll_filter_known {path : GoString} : ∀ (l : List Package) {i : Imports},
    (path = i.pkgPath ∨ i.importsByPath.get path ≠ none) →
    i.after (registerAll (l.filter (fun k => decide (k.importPath ≠ path)))) = i.after (registerAll l)
  | [], _, _ => rfl
  | k :: l, i, hk => by
    by_cases hp : k.importPath = path
    · rw [List.filter_cons_of_neg (by simpa using hp), registerAll_cons i k l, registerAll_of_known (by rw [hp]; exact hk)]
      exact registerAll_filter_known l hk
    · rw [List.filter_cons_of_pos (by simpa using hp), registerAll_cons i k, registerAll_cons i k]
      exact registerAll_filter_known l (known_after hk [k])

/-- Only the first mention of every path matters. -/
theorem registerAll_firstPackages : ∀ (l : List Package) (i : Imports),
    i.after (registerAll (firstPackages l)) = i.after (registerAll l)
  | [], _ => rfl
  | k :: l, i => by
    rw [firstPackages, registerAll_cons i k, registerAll_cons i k l, registerAll_filter_known _ ?_,
      registerAll_firstPackages l]
    have := registerAll_known i [k] k (by simp)
    exact this.imp (fun h => h.trans (after_registerAll i [k]).ext.own.symm) id

theorem alike_after : ∀ (l : List Package) {i i1 : Imports}, SameTables i i1 →
    SameTables (i.after (registerAll l)) (i1.after (registerAll l))
  | [], _, _, h => h
  | k :: l, i, i1, h => by
    rw [registerAll_cons i, registerAll_cons i1]
    refine alike_after l ?_
    have e : ∀ i : Imports, i.after (registerAll [k]) = (prefixForPackage k.importPath k.name true i).2 := by
      intro i
      simp [registerAll, Imports.after, Call.exec, registerImportForPackage, registerImport]
    rw [e, e]
    exact (alike_prefixForPackage k.importPath k.name true i i1 h).2

theorem registerAll_only {i : Imports} {l : List Package} {path : GoString} {d : ImportDef}
    (hg : (i.after (registerAll l)).importsByPath.get path = some d) :
    i.importsByPath.get path = some d ∨ ∃ k ∈ l, k.importPath = path := by
  induction l generalizing i with
  | nil => exact .inl hg
  | cons k l ih =>
    rw [registerAll_cons] at hg
    rcases ih hg with h | ⟨k', h1, h2⟩
    · by_cases hk : k.importPath = path
      · exact .inr ⟨k, by simp, hk⟩
      · left
        have e : i.after (registerAll [k]) = (prefixForPackage k.importPath k.name true i).2 := by
          simp [registerAll, Imports.after, Call.exec, registerImportForPackage, registerImport]
        rw [e] at h
        by_cases ho : k.importPath = i.pkgPath
        · rw [prefixForPackage_own ho] at h; exact h
        · cases hg : i.importsByPath.get k.importPath with
          | some d => rw [prefixForPackage_known ho hg] at h; exact h
          | none =>
            obtain ⟨q, _, hq⟩ := prefixForPackage_new (n := k.name) ho hg
            rw [hq] at h
            simpa [Imports.add, GoMap.get_set, hk, Ne.symm hk] using h
    · exact .inr ⟨k', List.mem_cons_of_mem _ h1, h2⟩

theorem known_transfer {i i1 J J1 : Imports} {l l1 : List Package} (hi : Inv i) (hs : SameTables i i1) (hp : l.Perm l1)
    (hJ : Ext (i.after (registerAll l)) J) (hJ1 : Ext (i1.after (registerAll l1)) J1) (hJJ : SameTables J J1)
    {path : GoString} {d : ImportDef} (hg : (i.after (registerAll l)).importsByPath.get path = some d) :
    (i1.after (registerAll l1)).importsByPath.get path = some d := by
  have e := after_registerAll i l
  have e1 := after_registerAll i1 l1
  have hne : (i1.after (registerAll l1)).importsByPath.get path ≠ none := by
    rcases registerAll_only hg with h | ⟨k, h1, h2⟩
    · rw [e1.ext.keeps _ _ ((hs.byPath _).trans h)]; simp
    · have := registerAll_known i1 l1 k (hp.mem_iff.1 h1)
      rw [h2] at this
      refine this.resolve_left fun ho => ?_
      have h3 := (e.inv hi).ownAbsent
      rw [e.ext.own, ← hs.own, ← ho, hg] at h3
      simp at h3
  cases h1 : (i1.after (registerAll l1)).importsByPath.get path with
  | none => exact absurd h1 hne
  | some d1 =>
    have h2 := hJ1.keeps _ _ h1
    rw [hJJ.byPath, hJ.keeps _ _ hg] at h2
    exact h2.symm

/-- If the tables are the same in the end, they are the same after the packages have been registered. -/
theorem sameTables_of_end {i i1 J J1 : Imports} {l l1 : List Package} (hi : Inv i) (hi1 : Inv i1) (hs : SameTables i i1)
    (hp : l.Perm l1) (hJ : Ext (i.after (registerAll l)) J) (hJ1 : Ext (i1.after (registerAll l1)) J1)
    (hJJ : SameTables J J1) : SameTables (i.after (registerAll l)) (i1.after (registerAll l1)) := by
  have e := after_registerAll i l
  have e1 := after_registerAll i1 l1
  refine .of_inv (e.inv hi) (e1.inv hi1) (e1.ext.own.trans (hs.own.trans e.ext.own.symm)) fun p => ?_
  cases hg : (i.after (registerAll l)).importsByPath.get p with
  | some d => exact known_transfer hi hs hp hJ hJ1 hJJ hg
  | none =>
    cases hg1 : (i1.after (registerAll l1)).importsByPath.get p with
    | none => rfl
    | some d =>
      have := known_transfer hi1 hs.symm hp.symm hJ1 hJ hJJ.symm hg1
      rw [hg] at this
      simp at this

/-! ### Template data -/

/-- The data mentions packages for the first time in the same order. -/
def SameFirsts (v v1 : TVal) : Prop :=
  firstPackages ((TVal.iface acceptsAll v1).mentions {}) = firstPackages ((TVal.iface acceptsAll v).mentions {})

theorem pair_qualifyTemplateData {J J1 : Imports} {h h1 : Heap} {i i1 : Imports} {v v1 : TVal}
    (hi : Inv i) (hi1 : Inv i1) (hs : SameTables i i1) (hr : Reordered v v1) (hp : PlainData v) (hp1 : PlainData v1)
    (hj : Ext (qualifyTemplateData h v i).2 J) (hj1 : Ext (qualifyTemplateData h1 v1 i1).2 J1)
    (hc : SameTables J J1 ∨ SameFirsts v v1) :
    ∃ v' v1' j j1, qualifyTemplateData h v i = (.ok v', j) ∧ qualifyTemplateData h1 v1 i1 = (.ok v1', j1) ∧
      SameTables j j1 ∧ Reordered v' v1' := by
  obtain ⟨v', j, hq, hres⟩ := C42_plain_data_partial (h := h) (memory_of_noSpecs h h (fun p => p) _ hp.noSpecs).1 hp.valid
    hp.settable hp.flatPtrs hp.plainKeys hp.distinctKeys i
  obtain ⟨v1', j1, hq1, hres1⟩ := C42_plain_data_partial (h := h1) (memory_of_noSpecs h1 h1 (fun p => p) _ hp1.noSpecs).1 hp1.valid
    hp1.settable hp1.flatPtrs hp1.plainKeys hp1.distinctKeys i1
  rw [hq] at hj
  rw [hq1] at hj1
  have hperm := (Reordered.iface (acc := acceptsAll) hr).mentions {}
  have he := effect_qualifyTemplateData h v _ _ _ hq
  have he1 := effect_qualifyTemplateData h1 v1 _ _ _ hq1
  rw [mentions_of_noSpecs h {} hp.noSpecs] at he
  rw [mentions_of_noSpecs h1 {} hp1.noSpecs] at he1
  rw [requalify_of_noSpecs h {} _ hp.noSpecs] at hres
  rw [requalify_of_noSpecs h1 {} _ hp1.noSpecs] at hres1
  have htab : SameTables j j1 := by
    rcases hc with hc | hc
    · rw [he, he1]
      rw [he] at hj
      rw [he1] at hj1
      exact sameTables_of_end hi hi1 hs hperm hj hj1 hc
    · rw [he, he1, ← registerAll_firstPackages, ← registerAll_firstPackages ((TVal.iface acceptsAll v1).mentions {}), hc]
      exact alike_after _ hs
  refine ⟨v', v1', j, j1, hq, hq1, htab, ?_⟩
  have hrq := (Reordered.iface (acc := acceptsAll) hr).requalify {} j.qualifierOf
  rw [hres, ← htab.qualifierOf, hres1] at hrq
  obtain ⟨w, h2, h3⟩ := hrq.iface_inv rfl
  simp only [TVal.iface.injEq, true_and] at h2
  rw [h2]
  exact h3

/-! ### Files -/

/-- The states of two runs. -/
structure Pair (J J1 : Imports) (h : Heap) (i : Imports) (h1 : Heap) (i1 : Imports) : Prop where
  same : SameButOrder h h1
  tables : SameTables i i1
  inv : Inv i
  inv1 : Inv i1
  templs : ∀ p t t1, h.templs p = some t → h1.templs p = some t1 →
    (DataStill i t.data ∧ DataStill i1 t1.data) ∨ (PlainData t.data ∧ PlainData t1.data ∧ (SameTables J J1 ∨ SameFirsts t.data t1.data))

/-- The two runs, which end before `J` and `J1`, give the same. -/
structure SameRuns {α} (J J1 : Imports) (x : QM α) : Prop where
  grows : ∀ h i, Evolves (fun _ => True) i (x h i).2.2
  run : ∀ {h i h1 i1}, Pair J J1 h i h1 i1 → Ext (x h i).2.2 J → Ext (x h1 i1).2.2 J1 →
    (x h1 i1).1 = (x h i).1 ∧ Pair J J1 (x h i).2.1 (x h i).2.2 (x h1 i1).2.1 (x h1 i1).2.2

namespace SameRuns
variable {α β : Type} {J J1 : Imports}

theorem ret (a : α) : SameRuns J J1 (QM.ret a) := ⟨fun _ _ => .refl _, fun h _ _ => ⟨rfl, h⟩⟩
theorem hang : SameRuns J J1 (QM.hang : QM α) := ⟨fun _ _ => .refl _, fun h _ _ => ⟨rfl, h⟩⟩

theorem bind {x : QM α} {f : α → QM β} (hx : SameRuns J J1 x) (hf : ∀ a, SameRuns J J1 (f a)) : SameRuns J J1 (QM.bind x f) := by
  constructor
  · intro h i
    have h1 := hx.grows h i
    unfold QM.bind
    rcases he : x h i with ⟨_ | _ | _, h', i'⟩ <;> rw [he] at h1
    · exact h1.trans ((hf _).grows _ _)
    · exact h1
    · exact h1
  · intro h i h1 i1 hs hj hj1
    have hend : ∀ (h : Heap) (i : Imports) (K : Imports), Ext (QM.bind x f h i).2.2 K → Ext (x h i).2.2 K := by
      intro h i K hk
      simp only [QM.bind] at hk
      rcases he : x h i with ⟨a | _ | _, h', i'⟩ <;> rw [he] at hk
      · exact ((hf a).grows h' i').ext.trans hk
      · exact hk
      · exact hk
    obtain ⟨h2, h3⟩ := hx.run hs (hend _ _ _ hj) (hend _ _ _ hj1)
    simp only [QM.bind] at hj hj1 ⊢
    rcases he : x h i with ⟨_ | _ | _, h', i'⟩ <;> rcases he1 : x h1 i1 with ⟨_ | _ | _, h1', i1'⟩ <;>
      rw [he, he1] at h2 h3 <;> rw [he] at hj <;> rw [he1] at hj1 <;> simp only [Outcome.ok.injEq, reduceCtorEq] at h2
    · subst h2
      exact (hf _).run h3 hj hj1
    · exact ⟨rfl, h3⟩
    · exact ⟨rfl, h3⟩

theorem forEach {f : α → QM Unit} (hf : ∀ a, SameRuns J J1 (f a)) : ∀ l, SameRuns J J1 (QM.forEach f l)
  | [] => ret ()
  | a :: l => bind (hf a) fun _ => forEach hf l

theorem read {m : Heap → Ptr → Option α} (hm : ∀ (h : Heap) files templs, m { h with files, templs } = m h) (p : Ptr) :
    SameRuns J J1 (QM.read m p) := by
  refine ⟨fun _ _ => .refl _, fun {h i h1 i1} hs _ _ => ⟨?_, hs⟩⟩
  simp only [QM.read]
  rw [hs.same.rest, hm]

theorem _root_.Gopoet.Pair.later {h h1 h' h1' : Heap} {i i1 j j1 : Imports} (hp : Pair J J1 h i h1 i1) (hs : SameButOrder h' h1')
    (ht : h'.templs = h.templs) (ht1 : h1'.templs = h1.templs) (hj : SameTables j j1)
    (e0 : Evolves (fun _ => True) i j) (e1 : Evolves (fun _ => True) i1 j1) : Pair J J1 h' j h1' j1 := by
  refine ⟨hs, hj, e0.inv hp.inv, e1.inv hp.inv1, ?_⟩
  rw [ht, ht1]
  intro p t t1 h2 h3
  rcases hp.templs p t t1 h2 h3 with ⟨h5, h6⟩ | h5
  · exact .inl ⟨e0.ext.dataStill h5, e1.ext.dataStill h6⟩
  · exact .inr h5

theorem lift {x : IM α} (hx : Alike x) {P : Package → Prop} (hr : Runs P x) : SameRuns J J1 (QM.lift fun _ => x) := by
  have hr := runs_true hr
  refine ⟨fun h i => hr i, fun {h i h1 i1} hs _ _ => ?_⟩
  obtain ⟨h2, h3⟩ := hx i i1 hs.tables
  exact ⟨h2, hs.later hs.same rfl rfl h3 (hr i) (hr i1)⟩

theorem modify {g : Heap → Heap}
    (hg : ∀ (h : Heap) files templs, g { h with files, templs } = { g h with files, templs })
    (hf : ∀ h, (g h).files = h.files) (hs : ∀ h, (g h).templs = h.templs) : SameRuns J J1 (QM.modify g) := by
  refine ⟨fun _ _ => .refl _, fun {h i h1 i1} ht _ _ => ⟨rfl, ht.later ⟨?_, ?_, ?_⟩ (hs _) (hs _) ht.tables (.refl _) (.refl _)⟩⟩
  · simp only [QM.modify, hf h1, hs h1]
    conv_lhs => rw [ht.same.rest, hg]
  · simp only [QM.modify, hf]; exact ht.same.files
  · simp only [QM.modify, hs]; exact ht.same.templs

end SameRuns

section
variable {J J1 : Imports}

theorem sameRuns_codeElem (e : CodeElem) : SameRuns J J1 e.qualify := by
  refine ⟨fun h i => (steps_codeElem e h i).evolves, ?_⟩
  cases e with
  | line f p =>
    intro h i h1 i1 ht _ _
    have sf := ht.same.packages
    simp only [CodeElem.qualify, sf.args]
    cases hl : h.args p with
    | none => exact ⟨rfl, ht⟩
    | some l =>
      dsimp only
      obtain ⟨h2, h3, h4⟩ := alike_qualifyArgList h l i i1 ht.tables
      rw [sf.qualifyArgList]
      have e0 := Evolves.mono (Q := fun _ => True) (fun _ _ => trivial) (evolves_qualifyArgList h l i).1
      have e1 := Evolves.mono (Q := fun _ => True) (fun _ _ => trivial) (evolves_qualifyArgList h l i1).1
      rcases hq : qualifyArgList h l i with ⟨o, l', j⟩
      rcases hq1 : qualifyArgList h l i1 with ⟨o1, l1', j1⟩
      rw [hq] at h2 h3 h4 e0
      rw [hq1] at h2 h3 h4 e1
      simp only at h2 h3 h4 e0 e1
      subst h2 h3
      refine ⟨rfl, ht.later ⟨?_, ht.same.files, ht.same.templs⟩ rfl rfl h4 e0 e1⟩
      conv_lhs => rw [ht.same.rest]
  | templ p =>
    intro h i h1 i1 ht hj hj1
    simp only [CodeElem.qualify, QM.bind, QM.read, QM.lift, QM.modify, deref] at hj hj1 ⊢
    rcases ht.same.templs p with ⟨h2, h3⟩ | ⟨t, t1, h2, h3, h4, h5⟩
    · rw [h2, h3]
      exact ⟨rfl, ht⟩
    · rw [h2] at hj
      rw [h3] at hj1
      rw [h2, h3]
      dsimp only at hj hj1 ⊢
      have key : ∃ d d1 j j1, qualifyTemplateData h t.data i = (.ok d, j) ∧ qualifyTemplateData h1 t1.data i1 = (.ok d1, j1) ∧
          SameTables j j1 ∧ Reordered d d1 ∧ DataStill j d ∧ DataStill j1 d1 := by
        rcases ht.templs p t t1 h2 h3 with ⟨h6, h7⟩ | ⟨h6, h7, h8⟩
        · exact ⟨_, _, _, _, h6 h i (.refl _), h7 h1 i1 (.refl _), ht.tables, h5, h6, h7⟩
        · have ha : Ext (qualifyTemplateData h t.data i).2 J := by
            rcases hq : qualifyTemplateData h t.data i with ⟨_ | _ | _, j⟩ <;> rw [hq] at hj <;> exact hj
          have hb : Ext (qualifyTemplateData h1 t1.data i1).2 J1 := by
            rcases hq : qualifyTemplateData h1 t1.data i1 with ⟨_ | _ | _, j⟩ <;> rw [hq] at hj1 <;> exact hj1
          obtain ⟨d, d1, j, j1, g0, g1, g2, g3⟩ := pair_qualifyTemplateData ht.inv ht.inv1 ht.tables h5 h6 h7 ha hb h8
          exact ⟨d, d1, j, j1, g0, g1, g2, g3, qualifyTemplateData_still h6.noSpecs g0, qualifyTemplateData_still h7.noSpecs g1⟩
      obtain ⟨d, d1, j, j1, g0, g1, g2, g3, g4, g5⟩ := key
      have e0 := runs_true (runs_qualifyTemplateData h t.data) i
      have e1 := runs_true (runs_qualifyTemplateData h1 t1.data) i1
      rw [g0] at e0
      rw [g1] at e1
      rw [g0, g1]
      refine ⟨rfl, ⟨?_, ht.same.files, ?_⟩, g2, e0.inv ht.inv, e1.inv ht.inv1, ?_⟩
      · conv_lhs => rw [ht.same.rest]
      · intro q
        by_cases hqp : q = p
        · subst hqp
          exact .inr ⟨_, _, upd_same .., upd_same .., h4, g3⟩
        · dsimp only
          rw [upd_ne _ _ hqp, upd_ne _ _ hqp]
          exact ht.same.templs q
      · intro q u u1 hu hu1
        by_cases hqp : q = p
        · subst hqp
          simp only [upd_same, Option.some.injEq] at hu hu1
          subst hu hu1
          exact .inl ⟨g4, g5⟩
        · dsimp only at hu hu1
          rw [upd_ne _ _ hqp] at hu hu1
          rcases ht.templs q u u1 hu hu1 with ⟨h5, h6⟩ | h5
          · exact .inl ⟨e0.ext.dataStill h5, e1.ext.dataStill h6⟩
          · exact .inr h5

theorem sameRuns_code (cb : CodeBlock) : SameRuns J J1 (qualifyCode cb) := .forEach sameRuns_codeElem cb

theorem sameRuns_ifaceElem (e : IfaceElem) : SameRuns J J1 e.qualify := by
  cases e with
  | embed p =>
    refine .bind (.read (fun _ _ _ => rfl) _) fun e => .bind (.lift ?_ (runs_embedQualify e)) fun r =>
      .modify (fun _ _ _ => rfl) (fun _ => rfl) (fun _ => rfl)
    exact .bind (alike_ensureImported _) fun _ => .pure _
  | method p =>
    refine .bind (.read (fun _ _ _ => rfl) _) fun e => .bind (.lift ?_ (runs_methodQualify e)) fun r =>
      .modify (fun _ _ _ => rfl) (fun _ => rfl) (fun _ => rfl)
    exact .bind (alike_qualifySignature true _) fun _ => .pure _

theorem sameRuns_field {sub : Ptr → QM Unit} (hsub : ∀ p, SameRuns J J1 (sub p)) (p : Ptr) : SameRuns J J1 (qualifyField sub p) := by
  refine .bind (.read (fun _ _ _ => rfl) _) fun f => ?_
  cases f.type with
  | nil => exact .ret _
  | name t =>
    exact .bind (.lift (alike_ensureTypeImported t) (runs_ensureTypeImported t)) fun _ =>
      .modify (fun _ _ _ => rfl) (fun _ => rfl) (fun _ => rfl)
  | spec q => exact hsub q

theorem sameRuns_spec : ∀ fuel p, SameRuns J J1 (qualifySpec fuel p)
  | 0, _ => .hang
  | fuel + 1, p => by
    exact .bind (.read (fun _ _ _ => rfl) _) fun ts =>
      .bind (.lift (alike_ensureTypeImported _) (runs_ensureTypeImported _)) fun u =>
      .bind (.modify (fun _ _ _ => rfl) (fun _ => rfl) (fun _ => rfl)) fun _ =>
      .bind (.forEach (sameRuns_field (sameRuns_spec fuel)) _) fun _ => .forEach sameRuns_ifaceElem _

theorem sameRuns_value (fuel : Nat) (p : Ptr) : SameRuns J J1 (qualifyValue fuel p) := by
  refine .bind (.read (fun _ _ _ => rfl) _) fun c => .bind ?_ fun t =>
    .bind (.modify (fun _ _ _ => rfl) (fun _ => rfl) (fun _ => rfl)) fun _ => ?_
  · cases c.type with
    | nil => exact .ret _
    | name t => exact .bind (.lift (alike_ensureTypeImported t) (runs_ensureTypeImported t)) fun _ => .ret _
    | spec q => exact .bind (sameRuns_spec fuel q) fun _ => .ret _
  · cases c.init with
    | none => exact .ret _
    | some b => exact .bind (.read (fun _ _ _ => rfl) _) fun _ => sameRuns_code _

theorem sameRuns_func (p : Ptr) : SameRuns J J1 (qualifyFunc p) := by
  exact .bind (.read (fun _ _ _ => rfl) _) fun f =>
    .bind (.lift (alike_ensureAllTypesImported _) (runs_ensureAllTypesImported _)) fun s =>
    .bind (.modify (fun _ _ _ => rfl) (fun _ => rfl) (fun _ => rfl)) fun _ => sameRuns_code _

theorem sameRuns_fileElem (fuel : Nat) (e : FileElem) : SameRuns J J1 (e.qualify fuel) := by
  cases e with
  | values p => exact .bind (.read (fun _ _ _ => rfl) _) fun d => .forEach (sameRuns_value fuel) _
  | types p => exact .bind (.read (fun _ _ _ => rfl) _) fun d => .forEach (sameRuns_spec fuel) _
  | func p => exact sameRuns_func p
end

/-- The imports of the file `p` on the heap. -/
def Heap.importsAt (h : Heap) (p : Ptr) : Option Imports := (h.files p).map (·.imports)

/-- Two orders with the same imports in the end, or in which all template data mentions packages in the same order,
give the same. -/
theorem pair_renderFile {env : Env} (hb : OrderBlind env) (fuel : Nat) (p : Ptr) {h h1 : Heap} (hs : SameButOrder h h1)
    (hi : ∀ f, h.files p = some f → Inv f.imports) (hi1 : ∀ f, h1.files p = some f → Inv f.imports)
    (hd : ∀ q t, h.templs q = some t → PlainData t.data)
    (hc : (∀ j j1, (renderFile env fuel p h).2.importsAt p = some j → (renderFile env fuel p h1).2.importsAt p = some j1 →
        SameTables j j1) ∨
      ∀ q t t1, h.templs q = some t → h1.templs q = some t1 → SameFirsts t.data t1.data) :
    (renderFile env fuel p h1).1 = (renderFile env fuel p h).1 ∧
    SameButOrder (renderFile env fuel p h).2 (renderFile env fuel p h1).2 := by
  unfold renderFile qualifyFile at hc ⊢
  rcases hs.files p with ⟨h2, h3⟩ | ⟨f, f1, h2, h3, hfe, h5⟩
  · rw [h2, h3]
    exact ⟨rfl, hs⟩
  · rw [h2, h3] at hc ⊢
    dsimp only at hc ⊢
    have hel : f1.elements = f.elements := by rw [hfe]
    rcases hx0 : QM.forEach (FileElem.qualify fuel) f.elements h f.imports with ⟨o, g, j⟩
    rcases hx1 : QM.forEach (FileElem.qualify fuel) f1.elements h1 f1.imports with ⟨o1, g1, j1⟩
    rw [hx0, hx1] at hc
    rw [hel] at hx1
    have hc' : SameTables j j1 ∨ ∀ q t t1, h.templs q = some t → h1.templs q = some t1 → SameFirsts t.data t1.data := by
      refine hc.imp (fun hc => hc j j1 ?_ ?_) id
      · rcases o with _ | _ | _ <;> simp [Heap.importsAt]
      · rcases o1 with _ | _ | _ <;> simp [Heap.importsAt]
    have hpair : Pair j j1 h f.imports h1 f1.imports := by
      refine ⟨hs, h5, hi _ h2, hi1 _ h3, fun q t t1 ht ht1 => ?_⟩
      rcases hs.templs q with ⟨h7, -⟩ | ⟨u, u1, h7, h8, -, h9⟩
      · rw [ht] at h7; simp at h7
      · rw [ht] at h7; rw [ht1] at h8
        cases h7; cases h8
        exact .inr ⟨hd q t ht, h9.plainData (hd q t ht), hc'.imp id fun k => k q t t1 ht ht1⟩
    have hx := (SameRuns.forEach (sameRuns_fileElem (J := j) (J1 := j1) fuel) f.elements).run hpair (by rw [hx0]; exact .refl _)
      (by rw [hx1]; exact .refl _)
    rw [hx0, hx1] at hx
    obtain ⟨ho, ht'⟩ := hx
    dsimp only at ho ht' ⊢
    subst ho
    have hsame : SameButOrder { g with files := upd g.files p { f with imports := j } }
        { g1 with files := upd g1.files p { f1 with imports := j1 } } := by
      refine ⟨?_, fun q => ?_, ht'.same.templs⟩
      · conv_lhs => rw [ht'.same.rest]
      · by_cases hqp : q = p
        · subst hqp
          refine .inr ⟨_, _, upd_same .., upd_same .., ?_, ht'.tables⟩
          rw [hfe]
        · dsimp only
          rw [upd_ne _ _ hqp, upd_ne _ _ hqp]
          exact ht'.same.files q
    cases o1 with
    | ok u =>
      refine ⟨?_, hsame⟩
      simp only [deref, upd_same]
      refine twin_fileText hb hsame fuel (f := { f with imports := j }) (f1 := { f1 with imports := j1 }) (by rw [hfe]) ?_
      exact importSpecs_eq_of_get ht'.inv1 ht'.inv ht'.tables.byPath
    | panic => exact ⟨rfl, hsame⟩
    | hang => exact ⟨rfl, hsame⟩

end Gopoet
