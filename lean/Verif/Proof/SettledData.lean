import Verif.Proof.SettledLemmas
import Verif.Spec.Template
/-! Template data: qualifying the result of a qualification again does nothing. -/

namespace Gopoet
open Imports

/-- Package-level specs stay where they are declared, and files in their packages. -/
structure SpecsStay (h h' : Heap) : Prop where
  parent : ∀ r x, SpecRef.parent h r = .ok x → SpecRef.parent h' r = .ok x
  files : ∀ p f, h.files p = some f → ∃ f', h'.files p = some f' ∧ f'.package = f.package

theorem SpecsStay.refl (h : Heap) : SpecsStay h h := ⟨fun _ _ hx => hx, fun _ f hf => ⟨f, hf, rfl⟩⟩

theorem SpecsStay.trans {h h' h'' : Heap} (a : SpecsStay h h') (b : SpecsStay h' h'') : SpecsStay h h'' := by
  refine ⟨fun r x hx => b.parent r x (a.parent r x hx), fun p f hf => ?_⟩
  obtain ⟨f1, h1, e1⟩ := a.files p f hf
  obtain ⟨f2, h2, e2⟩ := b.files p f1 h1
  exact ⟨f2, h2, e2.trans e1⟩

/-- The copies that stand for specs have the name under which the package path "" is imported. -/
def CopiesNamed (i : Imports) (l : List GoString) : Prop := ∀ n ∈ l, NamedIn i ⟨[], n⟩

theorem CopiesNamed.append {i : Imports} {l l' : List GoString} :
    CopiesNamed i (l ++ l') ↔ CopiesNamed i l ∧ CopiesNamed i l' := by
  simp [CopiesNamed, or_imp, forall_and]

theorem CopiesNamed.ext {i j : Imports} (h : Ext i j) {l : List GoString} (hc : CopiesNamed i l) :
    CopiesNamed j l := fun n hn => h.named (hc n hn)

/-- Qualifying the data does nothing, in this state and in all later ones, as soon as the copies that
stand for specs have the name under which the package path "" is imported. -/
def DataDone (h : Heap) (i : Imports) (addr : Bool) (v : TVal) : Prop :=
  ∀ h' k, SpecsStay h h' → Ext i k → CopiesNamed k v.copyNames → qualifyData h' addr v k = (.ok (v, false), k)

theorem Ext.dataDone {i j : Imports} (h : Ext i j) {g : Heap} {addr : Bool} {v : TVal} (hv : DataDone g i addr v) :
    DataDone g j addr v := fun h' k hs hk => hv h' k hs (h.trans hk)

/-- see `DataDone` -/
def FieldsDone (h : Heap) (i : Imports) (addr : Bool) (fs : List (Bool × TVal)) : Prop :=
  ∀ h' k hid, SpecsStay h h' → Ext i k → CopiesNamed k (copyNamesFields fs) →
    qualifyDataFields h' addr false hid fs k = (.ok (fs, false), k)
/-- see `DataDone` -/
def ElemsDone (h : Heap) (i : Imports) (addr : Bool) (vs : List TVal) : Prop :=
  ∀ h' k s, SpecsStay h h' → Ext i k → CopiesNamed k (copyNamesElems vs) →
    qualifyDataElems h' addr s false vs k = (.ok (vs, false), k)

theorem replays_qualifyConverted (acc : Accepts) (o : TVal) (t : Outcome TypeName) :
    Replays (qualifyConverted acc o t) :=
  .bind (.lift _) fun _ => .bind (replays_qualifyType _) fun _ => .ite (.pure _) (.pure _)

theorem replays_qualifyObject (acc : Accepts) (o : TVal) (s : SymbolOrMethodRef) :
    Replays (qualifyObject acc o s) := by
  cases s <;>
  exact .bind (replays_qualify _) fun _ => .ite (.pure _) (.pure _)

/-- The data is a value that is looked at through the interface that holds it. -/
def TVal.isConv : TVal → Bool
  | .typeName _ | .reflectType _ | .goType _ | .goObject _ | .goPackage _ => true
  | _ => false

theorem qualifyData_iface (h : Heap) (addr : Bool) (acc : Accepts) {v : TVal} (hv : v.isConv = false) :
    qualifyData h addr (.iface acc v) = (do
      let (v', c) ← qualifyData h false v
      pure (.iface acc v', c)) := by
  cases v <;> simp only [TVal.isConv, Bool.true_eq_false] at hv <;> rw [qualifyData] <;> simp

theorem refs_iface (acc : Accepts) {v : TVal} (hv : v.isConv = false) :
    (TVal.iface acc v).refs = v.refs := by
  cases v <;> simp only [TVal.isConv, Bool.true_eq_false] at hv <;> rw [TVal.refs] <;> simp

/-- What is known about the result of a qualification. -/
structure DataPost (h : Heap) (j : Imports) (addr : Bool) (v : TVal) (r : TVal × Bool) : Prop where
  same : r.2 = false → r.1 = v
  noSpecs : v.noSpecs = true → r.1.noSpecs = true
  done : DataDone h j addr r.1
  refs : ∀ pk ∈ r.1.refs, QPkg j pk
  conv : r.1.isConv = v.isConv

theorem DataDone.symbol {g : Heap} {i : Imports} {addr : Bool} {s : Symbol} (h : QPkg i s.package) :
    DataDone g i addr (.symbol s) := by
  intro h' k _ hk _
  rw [qualifyData, IM.bind_ok (ensureImported_of_settled (hk.qpkg h))]; simp

theorem DataDone.mref {g : Heap} {i : Imports} {addr : Bool} {m : MethodReference} (h : QPkg i m.type.package) :
    DataDone g i addr (.mref m) := by
  intro h' k _ hk _
  rw [qualifyData, IM.bind_ok (ensureImported_of_settled (hk.qpkg h))]; simp

theorem DataDone.package {g : Heap} {i : Imports} {addr : Bool} {p : Package} (h : NamedIn i p) :
    DataDone g i addr (.package p) := by
  intro h' k _ hk _
  rw [qualifyData, IM.bind_ok (registerPackage_of_named (hk.named h))]; simp

theorem DataDone.ptr {g : Heap} {i : Imports} {addr : Bool} {v : TVal} (h : DataDone g i true v) :
    DataDone g i addr (.ptr v) := by
  intro h' k hst hk hcn
  rw [qualifyData, IM.bind_ok (h h' k hst hk (by simpa [TVal.copyNames] using hcn))]; rfl

theorem DataDone.iface {g : Heap} {i : Imports} {addr : Bool} {acc : Accepts} {v : TVal} (hv : v.isConv = false)
    (h : DataDone g i false v) : DataDone g i addr (.iface acc v) := by
  intro h' k hst hk hcn
  rw [qualifyData_iface _ _ _ hv, IM.bind_ok (h h' k hst hk (by simpa [TVal.copyNames] using hcn))]; rfl

theorem DataDone.struct {g : Heap} {i : Imports} {addr : Bool} {fs} (h : FieldsDone g i addr fs) :
    DataDone g i addr (.struct fs) := by
  intro h' k hst hk hcn
  rw [qualifyData, IM.bind_ok (h h' k _ hst hk (by simpa [TVal.copyNames] using hcn))]; rfl

theorem FieldsDone.cons {g : Heap} {i : Imports} {addr e : Bool} {v fs} (he : (!e && !addr) = false)
    (hv : DataDone g i addr v) (h : FieldsDone g i addr fs) : FieldsDone g i addr ((e, v) :: fs) := by
  intro h' k hid hst hk hcn
  rw [copyNamesFields, CopiesNamed.append] at hcn
  rw [qualifyDataFields, he, if_neg (by simp), IM.bind_ok (hv h' k hst hk hcn.1)]
  simp only [Bool.false_and, Bool.and_false, Bool.or_self, Bool.false_eq_true, if_false]
  rw [IM.bind_ok (h h' k _ hst hk hcn.2)]; rfl

theorem ElemsDone.cons {g : Heap} {i : Imports} {addr : Bool} {v vs}
    (hv : DataDone g i addr v) (h : ElemsDone g i addr vs) : ElemsDone g i addr (v :: vs) := by
  intro h' k s hst hk hcn
  rw [copyNamesElems, CopiesNamed.append] at hcn
  rw [qualifyDataElems, IM.bind_ok (hv h' k hst hk hcn.1)]
  simp only [Bool.and_false, Bool.false_and, Bool.or_self, Bool.false_eq_true, if_false]
  rw [IM.bind_ok (h h' k _ hst hk hcn.2)]; rfl

theorem qualifyDataEntries_done {g : Heap} {i : Imports} : ∀ {es : List (TVal × TVal)},
    (∀ e ∈ es, DataDone g i false e.1 ∧ DataDone g i false e.2) → ∀ h k, SpecsStay g h → Ext i k →
      CopiesNamed k (copyNamesEntries es) → qualifyDataEntries h es k = (.ok (es, false), k)
  | [], _, h, k, _, _, _ => by rw [qualifyDataEntries]; rfl
  | (a, b) :: es, hd, h, k, hst, hk, hcn => by
    rw [copyNamesEntries, CopiesNamed.append, CopiesNamed.append] at hcn
    rw [qualifyDataEntries, IM.bind_ok ((hd (a, b) (by simp)).1 h k hst hk hcn.1.1)]
    show (qualifyData h false b >>= _) k = _
    rw [IM.bind_ok ((hd (a, b) (by simp)).2 h k hst hk hcn.1.2)]
    show (qualifyDataEntries h es >>= _) k = _
    rw [IM.bind_ok (qualifyDataEntries_done (fun e he => hd e (by simp [he])) h k hst hk hcn.2)]
    rfl

theorem DataDone.map {g : Heap} {i : Imports} {addr : Bool} {es : List (TVal × TVal)}
    (h : ∀ e ∈ es, DataDone g i false e.1 ∧ DataDone g i false e.2) : DataDone g i addr (.map es) := by
  intro h' k hst hk hcn
  rw [qualifyData, IM.bind_ok (qualifyDataEntries_done h h' k hst hk (by simpa [TVal.copyNames] using hcn))]; rfl

/-- A spec whose package is called what the imports call it is kept. -/
theorem DataDone.spec {g : Heap} {i : Imports} {addr : Bool} {r : SpecRef} {o : Option Ptr}
    (hp : r.parent g = .ok o) (hf : ∀ p, o = some p → ∃ f, g.files p = some f ∧ NamedIn i f.package) :
    DataDone g i addr (.spec r) := by
  intro h' k hst hk _
  rw [qualifyData, hst.parent _ _ hp, IM.bind_ok (IM.lift_apply _ _)]
  cases o with
  | none => rfl
  | some p =>
    obtain ⟨f, hf, hn⟩ := hf p rfl
    obtain ⟨f', hf', e⟩ := hst.files p f hf
    dsimp only
    rw [show deref h'.files p = .ok f' by simp [deref, hf'], IM.bind_ok (IM.lift_apply _ _), qualifySpecIn, e,
      IM.bind_ok (registerPackage_of_named (m := f.package.name) (hk.named hn))]
    simp

theorem DataDone.specCopy {g : Heap} {i : Imports} {addr : Bool} {r : SpecRef} {n : GoString} :
    DataDone g i addr (.specCopy r n) := by
  intro h' k _ _ hcn
  rw [qualifyData, qualifySpecIn,
    IM.bind_ok (registerPackage_of_named (m := n) (hcn n (by simp [TVal.copyNames])))]
  simp

/-! ### Maps -/

theorem setMapIndex_mem {P Q : TVal → Prop} {m : List (TVal × TVal)} {k v : TVal}
    (hm : ∀ e ∈ m, P e.1 ∧ Q e.2) (hk : P k) (hv : Q v) : ∀ e ∈ setMapIndex m k v, P e.1 ∧ Q e.2 := by
  induction m with
  | nil => simp [setMapIndex, hk, hv]
  | cons a m ih =>
    rw [setMapIndex]
    split
    · intro e he
      rcases List.mem_cons.1 he with rfl | he
      · exact ⟨(hm a (by simp)).1, hv⟩
      · exact hm e (by simp [he])
    · intro e he
      rcases List.mem_cons.1 he with rfl | he
      · exact hm _ (by simp)
      · exact ih (fun e he => hm e (by simp [he])) e he

theorem setMapIndex_foldl {P Q : TVal → Prop} : ∀ (es m : List (TVal × TVal)),
    (∀ e ∈ es, P e.1 ∧ Q e.2) → (∀ e ∈ m, P e.1 ∧ Q e.2) →
    ∀ e ∈ es.foldl (fun m e => setMapIndex m e.1 e.2) m, P e.1 ∧ Q e.2
  | [], m, _, hm => hm
  | a :: es, m, he, hm =>
    setMapIndex_foldl es _ (fun e h => he e (by simp [h]))
      (setMapIndex_mem hm (he a (by simp)).1 (he a (by simp)).2)

theorem noSpecsEntries_iff : ∀ es : List (TVal × TVal),
    noSpecsEntries es = true ↔ ∀ e ∈ es, e.1.noSpecs = true ∧ e.2.noSpecs = true
  | [] => by simp [noSpecsEntries]
  | (k, v) :: es => by
    simp only [noSpecsEntries, Bool.and_eq_true, noSpecsEntries_iff es, List.forall_mem_cons]

theorem mem_refsEntries {pk : Package} : ∀ es : List (TVal × TVal),
    pk ∈ refsEntries es ↔ ∃ e ∈ es, pk ∈ e.1.refs ∨ pk ∈ e.2.refs
  | [] => by simp [refsEntries]
  | (k, v) :: es => by
    simp only [refsEntries, List.mem_append, mem_refsEntries es, List.exists_mem_cons_iff]

/-! ### Interfaces -/

theorem convertedPost {g0 : Heap} {acc : Accepts} {addr : Bool} {v : TVal} {t : Outcome TypeName} {i j : Imports}
    {r : TVal × Bool} (hn : v.noSpecs = true)
    (hq : ∀ h addr, qualifyData h addr (.iface acc v) = qualifyConverted acc (.iface acc v) t)
    (hr : (TVal.iface acc v).refs = if acc.typeName then convertedRefs t else [])
    (h : qualifyConverted acc (.iface acc v) t i = (.ok r, j)) :
    DataPost g0 j addr (.iface acc v) r := by
  have h0 := h
  unfold qualifyConverted at h
  obtain ⟨t1, i1, h1, h⟩ := IM.bind_eq_ok h
  obtain ⟨ht, e1⟩ := lift_eq_ok h1
  subst e1
  obtain ⟨⟨t', c⟩, i2, h2, h⟩ := IM.bind_eq_ok h
  obtain ⟨g1, g2⟩ := qualifyType_settled t1 h2
  dsimp only at h g1 g2
  rw [IM.ite_apply] at h
  split at h
  · obtain ⟨e1, e2⟩ := pure_eq_ok h
    rename_i hc
    simp only [Bool.and_eq_true] at hc
    subst e1 e2
    refine ⟨by simp, fun _ => by simp [TVal.noSpecs], ?_, ?_, by simp [TVal.isConv]⟩
    · intro h' k hst hk hcn
      rw [qualifyData, qualifyConverted, IM.bind_ok (IM.lift_apply _ _),
        IM.bind_ok (qualifyType_of_settled _ (hk.typeSettled g2))]
      simp
    · intro pk hpk
      simp only [TVal.refs, hc.2, if_true, List.mem_map] at hpk
      obtain ⟨s, hs, rfl⟩ := hpk
      exact TypeName.All.symbols _ g2 s hs
  · obtain ⟨e1, e2⟩ := pure_eq_ok h
    rename_i hc
    subst e1 e2
    refine ⟨fun _ => rfl, fun _ => by simpa [TVal.noSpecs] using hn, ?_, ?_, rfl⟩
    · intro h' k hst hk hcn
      rw [hq]
      exact (replays_qualifyConverted _ _ _ _ _ _ h0).2 k hk
    · intro pk hpk
      rw [hr] at hpk
      split at hpk
      · rename_i ha
        have hc' : c = false := by simpa [ha] using hc
        rw [ht, ← g1 hc', convertedRefs] at hpk
        obtain ⟨s, hs, rfl⟩ := List.mem_map.1 hpk
        exact TypeName.All.symbols _ g2 s hs
      · simp at hpk

theorem objectPost {g0 : Heap} {acc : Accepts} {addr : Bool} {o : TypesObject} {i j : Imports} {sm : SymbolOrMethodRef}
    {r : TVal × Bool} (hsm : symbolForGoObject o = .ok sm)
    (h : qualifyObject acc (.iface acc (.goObject o)) sm i = (.ok r, j)) :
    DataPost g0 j addr (.iface acc (.goObject o)) r := by
  have h0 := h
  have hdone : DataPost g0 j addr (.iface acc (.goObject o)) (.iface acc (.goObject o), false) ∨ r.2 = true
      ∨ r ≠ (.iface acc (.goObject o), false) ∨
      ¬ ((acc.symbol && acc.mref) = true → ∀ pk ∈ objectRefs (.ok sm), QPkg j pk) := by
    by_cases hr : r = (.iface acc (.goObject o), false)
    · by_cases hp : ((acc.symbol && acc.mref) = true → ∀ pk ∈ objectRefs (.ok sm), QPkg j pk)
      · refine .inl ⟨fun _ => rfl, fun _ => by simp [TVal.noSpecs], ?_, ?_, rfl⟩
        · intro h' k hst hk hcn
          rw [qualifyData, hsm, IM.bind_ok (IM.lift_apply _ _)]
          rw [hr] at h0
          exact (replays_qualifyObject _ _ _ _ _ _ h0).2 k hk
        · intro pk hpk
          simp only [TVal.refs, hsm] at hpk
          split at hpk
          · rename_i ha; exact hp ha pk hpk
          · simp at hpk
      · exact .inr (.inr (.inr hp))
    · exact .inr (.inr (.inl hr))
  cases sm with
  | symbol s =>
    unfold qualifyObject at h
    obtain ⟨s', i1, h1, h⟩ := IM.bind_eq_ok h
    have g := ensureImported_settled h1
    rw [IM.ite_apply] at h
    by_cases hc : s' ≠ s ∧ acc.symbol = true
    · rw [if_pos hc] at h
      obtain ⟨e1, e2⟩ := pure_eq_ok h
      subst e1 e2
      exact ⟨by simp, fun _ => by simp [TVal.noSpecs], .iface rfl (.symbol g),
        by rw [refs_iface _ rfl]; simp only [TVal.refs, List.mem_singleton, forall_eq]; exact g, rfl⟩
    · rw [if_neg hc] at h
      obtain ⟨e1, e2⟩ := pure_eq_ok h
      subst e1 e2
      rcases hdone with hd | hd | hd | hd
      · exact hd
      · simp at hd
      · simp at hd
      · exfalso
        apply hd
        intro ha pk hpk
        simp only [Bool.and_eq_true] at ha
        have : s' = s := by
          by_contra hne
          exact hc ⟨hne, ha.1⟩
        subst this
        simp only [objectRefs, List.mem_singleton] at hpk
        subst hpk
        exact g
  | method m =>
    unfold qualifyObject at h
    obtain ⟨s', i1, h1, h⟩ := IM.bind_eq_ok h
    have g := ensureImported_settled h1
    rw [IM.ite_apply] at h
    by_cases hc : s' ≠ m.type ∧ acc.mref = true
    · rw [if_pos hc] at h
      obtain ⟨e1, e2⟩ := pure_eq_ok h
      subst e1 e2
      exact ⟨by simp, fun _ => by simp [TVal.noSpecs], .iface rfl (.ptr (.mref g)),
        by rw [refs_iface _ rfl]; simp only [TVal.refs, List.mem_singleton, forall_eq]; exact g, rfl⟩
    · rw [if_neg hc] at h
      obtain ⟨e1, e2⟩ := pure_eq_ok h
      subst e1 e2
      rcases hdone with hd | hd | hd | hd
      · exact hd
      · simp at hd
      · simp at hd
      · exfalso
        apply hd
        intro ha pk hpk
        simp only [Bool.and_eq_true] at ha
        have : s' = m.type := by
          by_contra hne
          exact hc ⟨hne, ha.2⟩
        subst this
        simp only [objectRefs, List.mem_singleton] at hpk
        subst hpk
        exact g

theorem ifaceGoPackagePost {acc : Accepts} {addr : Bool} {h : Heap} {g : TypesPackage} {i j : Imports}
    {r : TVal × Bool} (hq : qualifyData h addr (.iface acc (.goPackage g)) i = (.ok r, j)) :
    DataPost h j addr (.iface acc (.goPackage g)) r := by
  have h0 := hq
  rw [qualifyData, packageForGoType, IM.bind_ok (IM.lift_apply _ _)] at hq
  obtain ⟨n, i1, h1, hq⟩ := IM.bind_eq_ok hq
  have hn := registerPackage_named h1
  rw [IM.ite_apply] at hq
  by_cases hc : n ≠ g.name ∧ acc.package = true
  · rw [if_pos hc] at hq
    obtain ⟨e1, e2⟩ := pure_eq_ok hq
    subst e1 e2
    exact ⟨by simp, fun _ => by simp [TVal.noSpecs], .iface rfl (.package hn),
        by rw [refs_iface _ rfl]; simp only [TVal.refs, List.mem_singleton, forall_eq]; exact .inr hn, rfl⟩
  · rw [if_neg hc] at hq
    obtain ⟨e1, e2⟩ := pure_eq_ok hq
    subst e1 e2
    refine ⟨fun _ => rfl, fun _ => by simp [TVal.noSpecs], ?_, ?_, rfl⟩
    · intro h' k hst hk hcn
      rw [qualifyData, packageForGoType, IM.bind_ok (IM.lift_apply _ _),
        IM.bind_ok (registerPackage_of_named (hk.named hn)), IM.ite_apply, if_neg hc]
      rfl
    · intro pk hpk
      simp only [TVal.refs] at hpk
      split at hpk
      · rename_i ha
        have : n = g.name := by
          by_contra hne
          exact hc ⟨hne, ha⟩
        subst this
        simp only [List.mem_singleton] at hpk
        subst hpk
        exact .inr hn
      · simp at hpk

theorem IM.ite_panic_eq_ok {α : Type} {c : Prop} [Decidable c] {x : IM α} {i j : Imports} {r : α}
    (h : (if c then IM.panic else x) i = (.ok r, j)) : ¬ c ∧ x i = (.ok r, j) := by
  by_cases hc : c
  · rw [if_pos hc] at h; simp at h
  · rw [if_neg hc] at h; exact ⟨hc, h⟩

/-! ### Addressable values -/

mutual
/-- What works for values that are not addressable works for addressable ones. -/
theorem qualifyData_addr (h : Heap) : ∀ (v : TVal) {r : TVal × Bool} {i j : Imports},
    qualifyData h false v i = (.ok r, j) → qualifyData h true v i = (.ok r, j)
  | .iface acc v, r, i, j, hx => by
    by_cases hv : v.isConv = true
    · cases v <;> simp only [TVal.isConv, Bool.false_eq_true] at hv <;>
        (rw [qualifyData] at hx ⊢; exact hx)
    · have hv : v.isConv = false := by simpa using hv
      rw [qualifyData_iface _ _ _ hv] at hx ⊢
      exact hx
  | .package _, r, i, j, hx => by rw [qualifyData] at hx ⊢; exact hx
  | .symbol _, r, i, j, hx => by rw [qualifyData] at hx ⊢; exact hx
  | .mref _, r, i, j, hx => by rw [qualifyData] at hx ⊢; exact hx
  | .signature _, r, i, j, hx => by rw [qualifyData] at hx ⊢; exact hx
  | .spec _, r, i, j, hx => by rw [qualifyData] at hx ⊢; exact hx
  | .specCopy _ _, r, i, j, hx => by rw [qualifyData] at hx ⊢; exact hx
  | .embed _, r, i, j, hx => by rw [qualifyData] at hx ⊢; exact hx
  | .method _, r, i, j, hx => by rw [qualifyData] at hx ⊢; exact hx
  | .ptr _, r, i, j, hx => by rw [qualifyData] at hx ⊢; exact hx
  | .map _, r, i, j, hx => by rw [qualifyData] at hx ⊢; exact hx
  | .slice _, r, i, j, hx => by rw [qualifyData] at hx ⊢; exact hx
  | .struct fs, r, i, j, hx => by
    rw [qualifyData] at hx ⊢
    obtain ⟨x, i1, h1, hx⟩ := IM.bind_eq_ok hx
    rw [IM.bind_ok (qualifyDataFields_addr h _ _ fs h1)]
    exact hx
  | .array vs, r, i, j, hx => by
    rw [qualifyData] at hx ⊢
    obtain ⟨x, i1, h1, hx⟩ := IM.bind_eq_ok hx
    rw [IM.bind_ok (qualifyDataElems_addr h _ vs h1)]
    exact hx
  | .scalar _, r, i, j, hx => by rw [qualifyData] at hx ⊢ <;> first | exact hx | simp
  | .imports, r, i, j, hx => by rw [qualifyData] at hx ⊢ <;> first | exact hx | simp
  | .typeName _, r, i, j, hx => by rw [qualifyData] at hx ⊢ <;> first | exact hx | simp
  | .reflectType _, r, i, j, hx => by rw [qualifyData] at hx ⊢ <;> first | exact hx | simp
  | .goType _, r, i, j, hx => by rw [qualifyData] at hx ⊢ <;> first | exact hx | simp
  | .goObject _, r, i, j, hx => by rw [qualifyData] at hx ⊢ <;> first | exact hx | simp
  | .goPackage _, r, i, j, hx => by rw [qualifyData] at hx ⊢ <;> first | exact hx | simp
theorem qualifyDataFields_addr (h : Heap) : ∀ (changed hidden : Bool) (fs : List (Bool × TVal))
    {r : List (Bool × TVal) × Bool} {i j : Imports},
    qualifyDataFields h false changed hidden fs i = (.ok r, j) →
    qualifyDataFields h true changed hidden fs i = (.ok r, j)
  | changed, hidden, [], r, i, j, hx => by rw [qualifyDataFields] at hx ⊢; exact hx
  | changed, hidden, (e, v) :: fs, r, i, j, hx => by
    rw [qualifyDataFields] at hx ⊢
    by_cases he : (!e && !false) = true
    · rw [if_pos he] at hx; simp at hx
    · rw [if_neg he] at hx
      rw [if_neg (by simp)]
      obtain ⟨⟨v', c⟩, i1, h1, hx⟩ := IM.bind_eq_ok hx
      rw [IM.bind_ok (qualifyData_addr h v h1)]
      dsimp only at hx ⊢
      rw [IM.ite_apply] at hx ⊢
      split at hx
      · simp at hx
      · rename_i hc
        rw [if_neg hc]
        obtain ⟨x, i2, h2, hx⟩ := IM.bind_eq_ok hx
        rw [IM.bind_ok (qualifyDataFields_addr h _ _ fs h2)]
        exact hx
theorem qualifyDataElems_addr (h : Heap) : ∀ (changed : Bool) (vs : List TVal)
    {r : List TVal × Bool} {i j : Imports},
    qualifyDataElems h false false changed vs i = (.ok r, j) →
    qualifyDataElems h true true changed vs i = (.ok r, j)
  | changed, [], r, i, j, hx => by rw [qualifyDataElems] at hx ⊢; exact hx
  | changed, v :: vs, r, i, j, hx => by
    rw [qualifyDataElems] at hx ⊢
    obtain ⟨⟨v', c⟩, i1, h1, hx⟩ := IM.bind_eq_ok hx
    rw [IM.bind_ok (qualifyData_addr h v h1)]
    dsimp only at hx ⊢
    rw [IM.ite_apply] at hx ⊢
    split at hx
    · simp at hx
    · rename_i hc
      simp only [Bool.not_eq_true, Bool.or_eq_false_iff] at hc
      rw [if_neg (by simp [hc.2])]
      obtain ⟨x, i2, h2, hx⟩ := IM.bind_eq_ok hx
      rw [IM.bind_ok (qualifyDataElems_addr h _ vs h2)]
      exact hx
end

/-- What a changed pointer points to. -/
theorem DataPost.inIface {h : Heap} {j : Imports} {v v' : TVal} {c : Bool} (hp : DataPost h j true v (v', c)) :
    (v.noSpecs = true → v'.inIface.noSpecs = true) ∧ DataDone h j true v'.inIface ∧
      ∀ pk ∈ v'.inIface.refs, QPkg j pk := by
  cases v' <;> try exact ⟨hp.noSpecs, hp.done, hp.refs⟩
  rename_i acc w
  have hs := hp.noSpecs
  have hd := hp.done
  have hr := hp.refs
  simp only [TVal.noSpecs] at hs
  refine ⟨hs, ?_, ?_⟩
  · by_cases hv : w.isConv = true
    · cases w <;> simp only [TVal.isConv, Bool.false_eq_true] at hv <;>
      · intro h k _ _ _
        rw [TVal.inIface, qualifyData] <;> simp
    · have hv : w.isConv = false := by simpa using hv
      intro h k hst hk hcn
      have := hd h k hst hk (by simpa [TVal.copyNames, TVal.inIface] using hcn)
      dsimp only at this
      rw [qualifyData_iface _ _ _ hv] at this
      obtain ⟨⟨w', c'⟩, i1, h1, hx⟩ := IM.bind_eq_ok this
      simp only [IM.pure_apply, Prod.mk.injEq, Outcome.ok.injEq, TVal.iface.injEq, true_and] at hx
      obtain ⟨⟨e1, e2⟩, e3⟩ := hx
      subst e1 e2 e3
      exact qualifyData_addr h _ h1
  · by_cases hv : w.isConv = true
    · cases w <;> simp only [TVal.isConv, Bool.false_eq_true] at hv <;>
      · rw [TVal.inIface, TVal.refs] <;> simp
    · have hv : w.isConv = false := by simpa using hv
      dsimp only at hr
      rw [refs_iface _ hv] at hr
      exact hr

/-! ### All data -/

theorem InterfaceEmbed.qualify_of_settled {e : InterfaceEmbed} {k : Imports} (h : QPkg k e.type.package) :
    e.qualify k = (.ok (e, false), k) := by
  rw [InterfaceEmbed.qualify, IM.bind_ok (ensureImported_of_settled h)]
  simp

theorem InterfaceMethod.qualify_of_settled {m : InterfaceMethod} {k : Imports}
    (h : SigSettled k m.signature) : m.qualify k = (.ok (m, false), k) := by
  rw [InterfaceMethod.qualify, IM.bind_ok (qualifySignature_of_settled _ h)]
  rfl

theorem DataPost.trivial {h : Heap} {j : Imports} {addr : Bool} {v : TVal}
    (hq : ∀ h addr k, qualifyData h addr v k = (.ok (v, false), k)) (hs : v.noSpecs = true)
    (hr : v.refs = []) : DataPost h j addr v (v, false) :=
  ⟨fun _ => rfl, fun _ => hs, fun h k _ _ _ => hq h addr k, by simp [hr], rfl⟩

theorem trivialPost {h : Heap} {addr : Bool} {i j : Imports} {v : TVal} {r : TVal × Bool}
    (hq : ∀ h addr k, qualifyData h addr v k = (.ok (v, false), k)) (hs : v.noSpecs = true)
    (hr : v.refs = []) (hx : qualifyData h addr v i = (.ok r, j)) : DataPost h j addr v r := by
  rw [hq] at hx
  simp only [Prod.mk.injEq, Outcome.ok.injEq] at hx
  obtain ⟨rfl, rfl⟩ := hx
  exact .trivial hq hs hr

theorem ext_qualifyData {h : Heap} {addr : Bool} {v : TVal} {i j : Imports} {o : Outcome (TVal × Bool)}
    (hx : qualifyData h addr v i = (o, j)) : Ext i j := (runs_qualifyData h addr v).ext hx

mutual
theorem qualifyData_post (h : Heap) : ∀ (addr : Bool) (v : TVal) {r : TVal × Bool} {i j : Imports},
    qualifyData h addr v i = (.ok r, j) → DataPost h j addr v r
  | addr, .iface acc v, r, i, j, hx => by
    by_cases hv : v.isConv = true
    · cases v <;> simp only [TVal.isConv, Bool.false_eq_true] at hv
      case typeName t =>
        rw [qualifyData] at hx
        exact convertedPost rfl (fun h addr => by rw [qualifyData]) (by rw [TVal.refs]; rfl) hx
      case reflectType t =>
        rw [qualifyData] at hx
        exact convertedPost rfl (fun h addr => by rw [qualifyData]) (by rw [TVal.refs]) hx
      case goType t =>
        rw [qualifyData] at hx
        exact convertedPost rfl (fun h addr => by rw [qualifyData]) (by rw [TVal.refs]) hx
      case goObject o =>
        rw [qualifyData] at hx
        obtain ⟨sm, i1, h1, hx⟩ := IM.bind_eq_ok hx
        obtain ⟨ht, e1⟩ := lift_eq_ok h1
        subst e1
        exact objectPost ht hx
      case goPackage g => exact ifaceGoPackagePost hx
    · have hv : v.isConv = false := by simpa using hv
      rw [qualifyData_iface _ _ _ hv] at hx
      obtain ⟨⟨v', c⟩, i1, h1, hx⟩ := IM.bind_eq_ok hx
      obtain ⟨e1, e2⟩ := pure_eq_ok hx
      subst e1 e2
      have ih := qualifyData_post h false v h1
      have hv' : v'.isConv = false := ih.conv.trans hv
      exact ⟨fun hc => congrArg _ (ih.same hc), fun hs => by simpa [TVal.noSpecs] using ih.noSpecs (by simpa [TVal.noSpecs] using hs),
        .iface hv' ih.done, by rw [refs_iface _ hv']; exact ih.refs, rfl⟩
  | addr, .package p, r, i, j, hx => by
    rw [qualifyData] at hx
    obtain ⟨n, i1, h1, hx⟩ := IM.bind_eq_ok hx
    have hn := registerPackage_named h1
    rw [IM.ite_apply] at hx
    split at hx
    · obtain ⟨e1, e2⟩ := pure_eq_ok hx
      subst e1 e2
      exact ⟨by simp, fun _ => rfl, .package hn, by simp only [TVal.refs, List.mem_singleton, forall_eq]; exact .inr hn, rfl⟩
    · obtain ⟨e1, e2⟩ := pure_eq_ok hx
      rename_i hne
      simp only [ne_eq, not_not] at hne
      subst e1 e2 hne
      exact ⟨fun _ => rfl, fun _ => rfl, .package hn, by simp only [TVal.refs, List.mem_singleton, forall_eq]; exact .inr hn, rfl⟩
  | addr, .symbol s, r, i, j, hx => by
    rw [qualifyData] at hx
    obtain ⟨s', i1, h1, hx⟩ := IM.bind_eq_ok hx
    have g := ensureImported_settled h1
    obtain ⟨e1, e2⟩ := pure_eq_ok hx
    subst e1 e2
    exact ⟨by simp, fun _ => rfl, .symbol g, by simp only [TVal.refs, List.mem_singleton, forall_eq]; exact g, rfl⟩
  | addr, .mref m, r, i, j, hx => by
    rw [qualifyData] at hx
    obtain ⟨s', i1, h1, hx⟩ := IM.bind_eq_ok hx
    have g := ensureImported_settled h1
    obtain ⟨e1, e2⟩ := pure_eq_ok hx
    subst e1 e2
    refine ⟨?_, fun _ => rfl, .mref g, by simp only [TVal.refs, List.mem_singleton, forall_eq]; exact g, rfl⟩
    intro hc
    simp only [ne_eq, decide_not, Bool.not_eq_false', decide_eq_true_eq] at hc
    rw [hc]
  | addr, .signature s, r, i, j, hx => by
    rw [qualifyData] at hx
    obtain ⟨⟨s', c⟩, i1, h1, hx⟩ := IM.bind_eq_ok hx
    obtain ⟨g1, g2⟩ := qualifySignature_settled s h1
    obtain ⟨e1, e2⟩ := pure_eq_ok hx
    subst e1 e2
    refine ⟨fun hc => congrArg _ (g1 hc), fun _ => rfl, ?_, ?_, rfl⟩
    · intro h' k hst hk hcn
      rw [qualifyData, IM.bind_ok (qualifySignature_of_settled _ (hk.sigSettled g2))]; rfl
    · intro pk hpk
      simp only [TVal.refs, List.mem_map] at hpk
      obtain ⟨x, hx, rfl⟩ := hpk
      exact Signature.All.symbols _ g2 x hx
  | addr, .spec s, r, i, j, hx => by
    rw [qualifyData] at hx
    obtain ⟨o, i1, h1, hx⟩ := IM.bind_eq_ok hx
    obtain ⟨hp, e1⟩ := lift_eq_ok h1
    subst e1
    cases o with
    | none =>
      obtain ⟨e1, e2⟩ := pure_eq_ok hx
      subst e1 e2
      exact ⟨fun _ => rfl, fun hs => hs, .spec hp (by simp), by simp [TVal.refs], rfl⟩
    | some p =>
      dsimp only at hx
      obtain ⟨f, i2, h2, hx⟩ := IM.bind_eq_ok hx
      obtain ⟨hf, e2⟩ := lift_eq_ok h2
      subst e2
      rw [qualifySpecIn] at hx
      obtain ⟨n, i3, h3, hx⟩ := IM.bind_eq_ok hx
      have hn := registerPackage_named h3
      rw [IM.ite_apply] at hx
      split at hx
      · obtain ⟨e1, e2⟩ := pure_eq_ok hx
        subst e1 e2
        exact ⟨by simp, by simp [TVal.noSpecs], .specCopy, by simp [TVal.refs], rfl⟩
      · obtain ⟨e1, e2⟩ := pure_eq_ok hx
        rename_i hne
        simp only [ne_eq, not_not] at hne
        subst e1 e2 hne
        refine ⟨fun _ => rfl, fun hs => hs, .spec hp ?_, by simp [TVal.refs], rfl⟩
        rintro _ ⟨⟩
        exact ⟨f, deref_eq_ok hf, hn⟩
  | addr, .specCopy s n, r, i, j, hx => by
    rw [qualifyData, qualifySpecIn] at hx
    obtain ⟨n', i3, h3, hx⟩ := IM.bind_eq_ok hx
    rw [IM.ite_apply] at hx
    split at hx
    · obtain ⟨e1, e2⟩ := pure_eq_ok hx
      subst e1 e2
      exact ⟨by simp, by simp [TVal.noSpecs], .specCopy, by simp [TVal.refs], rfl⟩
    · obtain ⟨e1, e2⟩ := pure_eq_ok hx
      subst e1 e2
      exact ⟨fun _ => rfl, fun hs => hs, .specCopy, by simp [TVal.refs], rfl⟩
  | addr, .embed e, r, i, j, hx => by
    rw [qualifyData] at hx
    obtain ⟨⟨e', c⟩, i1, h1, hx⟩ := IM.bind_eq_ok hx
    obtain ⟨e1, e2⟩ := pure_eq_ok hx
    subst e1 e2
    rw [InterfaceEmbed.qualify] at h1
    obtain ⟨s, i2, h2, h1⟩ := IM.bind_eq_ok h1
    obtain ⟨e1, e2⟩ := pure_eq_ok h1
    simp only [Prod.mk.injEq] at e1
    obtain ⟨e1, e3⟩ := e1
    subst e1 e2 e3
    have g := ensureImported_settled h2
    refine ⟨?_, fun _ => rfl, ?_, by simp only [TVal.refs, List.mem_singleton, forall_eq]; exact g, rfl⟩
    · intro hc
      simp only [ne_eq, decide_not, Bool.not_eq_false', decide_eq_true_eq] at hc
      rw [← hc]
    · intro h' k hst hk hcn
      rw [qualifyData, IM.bind_ok (InterfaceEmbed.qualify_of_settled (e := ⟨_, s, _⟩) (hk.qpkg g))]
      rfl
  | addr, .method m, r, i, j, hx => by
    rw [qualifyData] at hx
    obtain ⟨⟨e', c⟩, i1, h1, hx⟩ := IM.bind_eq_ok hx
    obtain ⟨e1, e2⟩ := pure_eq_ok hx
    subst e1 e2
    rw [InterfaceMethod.qualify] at h1
    obtain ⟨⟨s, c'⟩, i2, h2, h1⟩ := IM.bind_eq_ok h1
    obtain ⟨e1, e2⟩ := pure_eq_ok h1
    simp only [Prod.mk.injEq] at e1
    obtain ⟨e1, e3⟩ := e1
    subst e1 e2 e3
    obtain ⟨g1, g2⟩ := qualifySignature_settled _ h2
    dsimp only at g1 g2
    refine ⟨?_, fun _ => rfl, ?_, ?_, rfl⟩
    · intro hc
      dsimp only
      rw [g1 hc]
    · intro h' k hst hk hcn
      rw [qualifyData, IM.bind_ok (InterfaceMethod.qualify_of_settled (m := { m with signature := s }) (hk.sigSettled g2))]
      rfl
    · intro pk hpk
      simp only [TVal.refs, List.mem_map] at hpk
      obtain ⟨x, hx, rfl⟩ := hpk
      exact Signature.All.symbols _ g2 x hx
  | addr, .ptr v, r, i, j, hx => by
    rw [qualifyData] at hx
    obtain ⟨⟨v', c⟩, i1, h1, hx⟩ := IM.bind_eq_ok hx
    obtain ⟨e1, e2⟩ := pure_eq_ok hx
    subst e1 e2
    have ih := qualifyData_post h true v h1
    cases c
    · exact ⟨fun hc => congrArg _ (ih.same hc), fun hs => by simpa [TVal.noSpecs] using ih.noSpecs (by simpa [TVal.noSpecs] using hs), .ptr ih.done,
        by simpa [TVal.refs] using ih.refs, rfl⟩
    · obtain ⟨a1, a2, a3⟩ := ih.inIface
      exact ⟨by simp, fun hs => by simpa [TVal.noSpecs] using a1 (by simpa [TVal.noSpecs] using hs), .ptr a2, by simpa [TVal.refs] using a3, rfl⟩
  | addr, .struct fs, r, i, j, hx => by
    rw [qualifyData] at hx
    obtain ⟨⟨fs', c⟩, i1, h1, hx⟩ := IM.bind_eq_ok hx
    obtain ⟨e1, e2⟩ := pure_eq_ok hx
    subst e1 e2
    obtain ⟨a1, a2, a3, a4⟩ := qualifyDataFields_post h addr false false fs
      h1
    exact ⟨fun hc => congrArg _ (a1 hc).1, fun hs => by simpa [TVal.noSpecs] using a2 (by simpa [TVal.noSpecs] using hs), .struct a3,
      by simpa [TVal.refs] using a4, rfl⟩
  | addr, .array vs, r, i, j, hx => by
    rw [qualifyData] at hx
    obtain ⟨⟨fs', c⟩, i1, h1, hx⟩ := IM.bind_eq_ok hx
    obtain ⟨e1, e2⟩ := pure_eq_ok hx
    subst e1 e2
    obtain ⟨a1, a2, a3, a4⟩ := qualifyDataElems_post h addr addr false vs
      h1
    refine ⟨fun hc => congrArg _ (a1 hc).1, fun hs => by simpa [TVal.noSpecs] using a2 (by simpa [TVal.noSpecs] using hs), ?_,
      by simpa [TVal.refs] using a4, rfl⟩
    intro h' k hst hk hcn
    rw [qualifyData, IM.bind_ok (a3 h' k _ hst hk (by simpa [TVal.copyNames] using hcn))]; rfl
  | addr, .slice vs, r, i, j, hx => by
    rw [qualifyData] at hx
    obtain ⟨⟨fs', c⟩, i1, h1, hx⟩ := IM.bind_eq_ok hx
    obtain ⟨e1, e2⟩ := pure_eq_ok hx
    subst e1 e2
    obtain ⟨a1, a2, a3, a4⟩ := qualifyDataElems_post h true true false vs
      h1
    refine ⟨fun hc => congrArg _ (a1 hc).1, fun hs => by simpa [TVal.noSpecs] using a2 (by simpa [TVal.noSpecs] using hs), ?_,
      by simpa [TVal.refs] using a4, rfl⟩
    intro h' k hst hk hcn
    rw [qualifyData, IM.bind_ok (a3 h' k _ hst hk (by simpa [TVal.copyNames] using hcn))]; rfl
  | addr, .map es, r, i, j, hx => by
    rw [qualifyData] at hx
    obtain ⟨⟨es', c⟩, i1, h1, hx⟩ := IM.bind_eq_ok hx
    obtain ⟨a1, a2⟩ := qualifyDataEntries_post h es h1
    dsimp only at hx a1 a2
    have main : ∀ l : List (TVal × TVal), (∀ e ∈ l,
        ((noSpecsEntries es = true → e.1.noSpecs = true) ∧ DataDone h i1 false e.1 ∧ ∀ pk ∈ e.1.refs, QPkg i1 pk) ∧
        ((noSpecsEntries es = true → e.2.noSpecs = true) ∧ DataDone h i1 false e.2 ∧ ∀ pk ∈ e.2.refs, QPkg i1 pk)) →
        ((TVal.map es).noSpecs = true → (TVal.map l).noSpecs = true) ∧ DataDone h i1 addr (.map l) ∧ ∀ pk ∈ (TVal.map l).refs, QPkg i1 pk := by
      intro l hl
      refine ⟨?_, .map fun e he => ⟨(hl e he).1.2.1, (hl e he).2.2.1⟩, ?_⟩
      · rw [TVal.noSpecs, TVal.noSpecs, noSpecsEntries_iff l]
        exact fun hs e he => ⟨(hl e he).1.1 hs, (hl e he).2.1 hs⟩
      · intro pk hpk
        rw [TVal.refs, mem_refsEntries] at hpk
        obtain ⟨e, he, hp | hp⟩ := hpk
        · exact (hl e he).1.2.2 pk hp
        · exact (hl e he).2.2.2 pk hp
    rw [IM.ite_apply] at hx
    split at hx
    · obtain ⟨e1, e2⟩ := pure_eq_ok hx
      subst e1 e2
      obtain ⟨m1, m2, m3⟩ := main _ (setMapIndex_foldl
        (P := fun v => (noSpecsEntries es = true → v.noSpecs = true) ∧ DataDone h i1 false v ∧ ∀ pk ∈ v.refs, QPkg i1 pk)
        (Q := fun v => (noSpecsEntries es = true → v.noSpecs = true) ∧ DataDone h i1 false v ∧ ∀ pk ∈ v.refs, QPkg i1 pk)
        es' [] a2 (by simp))
      exact ⟨by simp, m1, m2, m3, rfl⟩
    · obtain ⟨e1, e2⟩ := pure_eq_ok hx
      rename_i hc
      have e3 := a1 (by simpa using hc)
      subst e1 e2 e3
      obtain ⟨m1, m2, m3⟩ := main _ a2
      exact ⟨fun _ => rfl, m1, m2, m3, rfl⟩
  | addr, .scalar _, r, i, j, hx => by
    exact trivialPost (fun h addr k => by rw [qualifyData] <;> simp) rfl (by rw [TVal.refs] <;> simp) hx
  | addr, .imports, r, i, j, hx => by
    exact trivialPost (fun h addr k => by rw [qualifyData] <;> simp) rfl (by rw [TVal.refs] <;> simp) hx
  | addr, .typeName _, r, i, j, hx => by
    exact trivialPost (fun h addr k => by rw [qualifyData] <;> simp) rfl (by rw [TVal.refs] <;> simp) hx
  | addr, .reflectType _, r, i, j, hx => by
    exact trivialPost (fun h addr k => by rw [qualifyData] <;> simp) rfl (by rw [TVal.refs] <;> simp) hx
  | addr, .goType _, r, i, j, hx => by
    exact trivialPost (fun h addr k => by rw [qualifyData] <;> simp) rfl (by rw [TVal.refs] <;> simp) hx
  | addr, .goObject _, r, i, j, hx => by
    exact trivialPost (fun h addr k => by rw [qualifyData] <;> simp) rfl (by rw [TVal.refs] <;> simp) hx
  | addr, .goPackage _, r, i, j, hx => by
    exact trivialPost (fun h addr k => by rw [qualifyData] <;> simp) rfl (by rw [TVal.refs] <;> simp) hx
theorem qualifyDataFields_post (h : Heap) (addr : Bool) : ∀ (changed hidden : Bool)
    (fs : List (Bool × TVal)) {r : List (Bool × TVal) × Bool} {i j : Imports},
    qualifyDataFields h addr changed hidden fs i = (.ok r, j) →
    (r.2 = false → r.1 = fs ∧ changed = false) ∧ (noSpecsFields fs = true → noSpecsFields r.1 = true) ∧ FieldsDone h j addr r.1 ∧
      ∀ pk ∈ refsFields r.1, QPkg j pk
  | changed, hidden, [], r, i, j, hx => by
    rw [qualifyDataFields] at hx
    obtain ⟨e1, e2⟩ := pure_eq_ok hx
    subst e1 e2
    refine ⟨fun hc => ⟨rfl, hc⟩, fun hs => hs, ?_, by simp [refsFields]⟩
    intro h' k hid hst hk hcn
    rw [qualifyDataFields]; rfl
  | changed, hidden, (e, v) :: fs, r, i, j, hx => by
    rw [qualifyDataFields] at hx
    by_cases he : (!e && !addr) = true
    · rw [if_pos he] at hx; simp at hx
    · rw [if_neg he] at hx
      obtain ⟨⟨v', c⟩, i1, h1, hx⟩ := IM.bind_eq_ok hx
      dsimp only at hx
      have ih := qualifyData_post h addr v h1
      by_cases hp : ((changed && !e) || (!changed && c && (hidden || !e)) || (c && v.ifacePtr)) = true
      · rw [if_pos hp] at hx; simp at hx
      · rw [if_neg hp] at hx
        obtain ⟨⟨fs', c'⟩, i2, h2, hx⟩ := IM.bind_eq_ok hx
        obtain ⟨e1, e2⟩ := pure_eq_ok hx
        subst e1 e2
        obtain ⟨a1, a2, a3, a4⟩ := qualifyDataFields_post h addr _ _ fs h2
        have hext := (runs_qualifyDataFields h addr _ _ fs).ext h2
        refine ⟨?_, ?_, .cons (by simpa using he) (hext.dataDone ih.done) a3, ?_⟩
        · intro hc
          obtain ⟨b1, b2⟩ := a1 hc
          simp only [Bool.or_eq_false_iff] at b2
          have b3 := ih.same b2.2
          dsimp only at b1 b3 ⊢
          rw [b1, b3]
          exact ⟨rfl, b2.1⟩
        · simp only [noSpecsFields, Bool.and_eq_true]
          exact fun hs => ⟨ih.noSpecs hs.1, a2 hs.2⟩
        · intro pk hpk
          simp only [refsFields, List.mem_append] at hpk
          rcases hpk with hpk | hpk
          · exact hext.qpkg (ih.refs pk hpk)
          · exact a4 pk hpk
theorem qualifyDataElems_post (h : Heap) (addr sl : Bool) : ∀ (changed : Bool)
    (vs : List TVal) {r : List TVal × Bool} {i j : Imports},
    qualifyDataElems h addr sl changed vs i = (.ok r, j) →
    (r.2 = false → r.1 = vs ∧ changed = false) ∧ (noSpecsElems vs = true → noSpecsElems r.1 = true) ∧ ElemsDone h j addr r.1 ∧
      ∀ pk ∈ refsElems r.1, QPkg j pk
  | changed, [], r, i, j, hx => by
    rw [qualifyDataElems] at hx
    obtain ⟨e1, e2⟩ := pure_eq_ok hx
    subst e1 e2
    refine ⟨fun hc => ⟨rfl, hc⟩, fun hs => hs, ?_, by simp [refsElems]⟩
    intro h' k hid hst hk hcn
    rw [qualifyDataElems]; rfl
  | changed, v :: vs, r, i, j, hx => by
    rw [qualifyDataElems] at hx
    obtain ⟨⟨v', c⟩, i1, h1, hx⟩ := IM.bind_eq_ok hx
    dsimp only at hx
    have ih := qualifyData_post h addr v h1
    by_cases hp : ((!changed && c && !sl) || (c && v.ifacePtr)) = true
    · rw [if_pos hp] at hx; simp at hx
    · rw [if_neg hp] at hx
      obtain ⟨⟨fs', c'⟩, i2, h2, hx⟩ := IM.bind_eq_ok hx
      obtain ⟨e1, e2⟩ := pure_eq_ok hx
      subst e1 e2
      obtain ⟨a1, a2, a3, a4⟩ := qualifyDataElems_post h addr _ _ vs h2
      have hext := (runs_qualifyDataElems h addr _ _ vs).ext h2
      refine ⟨?_, ?_, .cons (hext.dataDone ih.done) a3, ?_⟩
      · intro hc
        obtain ⟨b1, b2⟩ := a1 hc
        simp only [Bool.or_eq_false_iff] at b2
        have b3 := ih.same b2.2
        dsimp only at b1 b3 ⊢
        rw [b1, b3]
        exact ⟨rfl, b2.1⟩
      · simp only [noSpecsElems, Bool.and_eq_true]
        exact fun hs => ⟨ih.noSpecs hs.1, a2 hs.2⟩
      · intro pk hpk
        simp only [refsElems, List.mem_append] at hpk
        rcases hpk with hpk | hpk
        · exact hext.qpkg (ih.refs pk hpk)
        · exact a4 pk hpk
theorem qualifyDataEntries_post (h : Heap) : ∀ (es : List (TVal × TVal))
    {r : List (TVal × TVal) × Bool} {i j : Imports},
    qualifyDataEntries h es i = (.ok r, j) →
    (r.2 = false → r.1 = es) ∧ ∀ e ∈ r.1,
      ((noSpecsEntries es = true → e.1.noSpecs = true) ∧ DataDone h j false e.1 ∧ ∀ pk ∈ e.1.refs, QPkg j pk) ∧
      ((noSpecsEntries es = true → e.2.noSpecs = true) ∧ DataDone h j false e.2 ∧ ∀ pk ∈ e.2.refs, QPkg j pk)
  | [], r, i, j, hx => by
    rw [qualifyDataEntries] at hx
    obtain ⟨e1, e2⟩ := pure_eq_ok hx
    subst e1 e2
    exact ⟨fun _ => rfl, by simp⟩
  | (k, v) :: es, r, i, j, hx => by
    rw [qualifyDataEntries] at hx
    obtain ⟨⟨k', ck⟩, i1, h1, hx⟩ := IM.bind_eq_ok hx
    obtain ⟨⟨v', cv⟩, i2, h2, hx⟩ := IM.bind_eq_ok hx
    obtain ⟨-, hx⟩ := IM.ite_panic_eq_ok hx
    obtain ⟨⟨es', c⟩, i3, h3, hx⟩ := IM.bind_eq_ok hx
    obtain ⟨e1, e2⟩ := pure_eq_ok hx
    subst e1 e2
    have ihk := qualifyData_post h false k h1
    have ihv := qualifyData_post h false v h2
    obtain ⟨a1, a2⟩ := qualifyDataEntries_post h es h3
    have ext3 := (runs_qualifyDataEntries h es).ext h3
    have ext2 := (ext_qualifyData h2).trans ext3
    refine ⟨?_, ?_⟩
    · intro hc
      simp only [Bool.or_eq_false_iff] at hc
      have b1 := ihk.same hc.1.1
      have b2 := ihv.same hc.1.2
      have b3 := a1 hc.2
      dsimp only at b1 b2 b3 ⊢
      rw [b1, b2, b3]
    · intro e he
      rcases List.mem_cons.1 he with rfl | he
      · simp only [noSpecsEntries, Bool.and_eq_true]
        exact ⟨⟨fun hs => ihk.noSpecs hs.1.1, ext2.dataDone ihk.done, fun pk hp => ext2.qpkg (ihk.refs pk hp)⟩,
          ⟨fun hs => ihv.noSpecs hs.1.2, ext3.dataDone ihv.done, fun pk hp => ext3.qpkg (ihv.refs pk hp)⟩⟩
      · simp only [noSpecsEntries, Bool.and_eq_true]
        exact ⟨⟨fun hs => (a2 e he).1.1 hs.2, (a2 e he).1.2⟩, ⟨fun hs => (a2 e he).2.1 hs.2, (a2 e he).2.2⟩⟩
end

end Gopoet
