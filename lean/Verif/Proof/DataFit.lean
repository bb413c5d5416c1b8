import Verif.Proof.TwinHeap
import Verif.Spec.Writable
/-! Template data that can be qualified can be qualified again. -/

namespace Gopoet
open Imports

/-- The call gives something with the property, if it returns. -/
def Gives {α} (P : α → Prop) (x : IM α) : Prop := ∀ i a j, x i = (.ok a, j) → P a

namespace Gives
variable {α β : Type} {P : α → Prop}

theorem pure {a : α} (h : P a) : Gives P (Pure.pure a : IM α) := by
  intro i b j hb
  obtain ⟨rfl, -⟩ := pure_eq_ok hb
  exact h

theorem panic : Gives P (IM.panic : IM α) := by
  intro i b j hb
  simp [IM.panic] at hb

theorem bind {Q : β → Prop} {x : IM β} {f : β → IM α} (hx : Gives Q x) (hf : ∀ b, Q b → Gives P (f b)) :
    Gives P (x >>= f) := by
  intro i a j h
  obtain ⟨b, k, h1, h2⟩ := IM.bind_eq_ok h
  exact hf b (hx _ _ _ h1) _ _ _ h2

theorem trivial (x : IM β) : Gives (fun _ => True) x := fun _ _ _ _ => True.intro

theorem ite {c : Prop} [Decidable c] {x y : IM α} (hx : c → Gives P x) (hy : ¬ c → Gives P y) :
    Gives P (if c then x else y) := by
  split
  · rename_i h; exact hx h
  · rename_i h; exact hy h
end Gives

theorem gives_lift {α} {P : α → Prop} {x : Outcome α} (h : ∀ a, x = .ok a → P a) : Gives P (IM.lift x) := by
  intro i a j hl
  rw [IM.lift_apply] at hl
  exact h a (congrArg Prod.fst hl)

theorem gives_qualifyType {t : TypeName} (hv : t.valid = true) : Gives (fun r => r.1.valid = true) (qualifyType true t) := by
  intro i a j h
  obtain ⟨k, h1, -⟩ := qualifyType_ok true t i hv (.inl rfl)
  rw [h1] at h
  cases h
  rw [valid_mapSymbols]; exact hv

theorem gives_qualifySignature {t : Signature} (hv : t.valid = true) :
    Gives (fun r => r.1.valid = true) (qualifySignature true t) := by
  intro i a j h
  obtain ⟨k, h1, -⟩ := qualifySignature_ok true t i hv (.inl rfl)
  rw [h1] at h
  cases h
  rw [valid_mapSymbols_sig]; exact hv

/-- The conditions for qualification, for a value that is addressable or not. -/
structure Fit (h : Heap) (addr : Bool) (v : TVal) : Prop where
  present : v.specsPresent h = true
  valid : v.validTypes = true
  settable : v.settable addr = true
  flatPtrs : v.flatPtrs = true

theorem fit_iff {h : Heap} {addr : Bool} {v : TVal} : Fit h addr v ↔
    v.specsPresent h = true ∧ v.validTypes = true ∧ v.settable addr = true ∧ v.flatPtrs = true :=
  ⟨fun ⟨a, b, c, d⟩ => ⟨a, b, c, d⟩, fun ⟨a, b, c, d⟩ => ⟨a, b, c, d⟩⟩

theorem specsPresentFields_eq (h : Heap) (l : List (Bool × TVal)) :
    specsPresentFields h l = l.all (·.2.specsPresent h) := by
  induction l with
  | nil => rfl
  | cons x l ih => obtain ⟨e, v⟩ := x; simp [specsPresentFields, ih]
theorem specsPresentElems_eq (h : Heap) (l : List TVal) : specsPresentElems h l = l.all (·.specsPresent h) := by
  induction l with
  | nil => rfl
  | cons x l ih => simp [specsPresentElems, ih]
theorem specsPresentEntries_eq (h : Heap) (l : List (TVal × TVal)) :
    specsPresentEntries h l = l.all (fun e => e.1.specsPresent h && e.2.specsPresent h) := by
  induction l with
  | nil => rfl
  | cons x l ih => obtain ⟨e, v⟩ := x; simp [specsPresentEntries, ih]

theorem fit_struct {h : Heap} {addr : Bool} {fs : List (Bool × TVal)} :
    Fit h addr (.struct fs) ↔ ∀ f ∈ fs, f.1 = true ∧ Fit h addr f.2 := by
  simp only [fit_iff, TVal.specsPresent, TVal.validTypes, TVal.settable, TVal.flatPtrs, specsPresentFields_eq,
    validTypesFields_eq, settableFields_eq, flatPtrsFields_eq, List.all_eq_true, Bool.and_eq_true]
  constructor
  · rintro ⟨h1, h2, h3, h4⟩ f hf
    exact ⟨(h3 f hf).1, h1 f hf, h2 f hf, (h3 f hf).2, h4 f hf⟩
  · intro h1
    exact ⟨fun f hf => (h1 f hf).2.1, fun f hf => (h1 f hf).2.2.1, fun f hf => ⟨(h1 f hf).1, (h1 f hf).2.2.2.1⟩,
      fun f hf => (h1 f hf).2.2.2.2⟩

theorem fit_array {h : Heap} {addr : Bool} {vs : List TVal} :
    Fit h addr (.array vs) ↔ addr = true ∧ ∀ v ∈ vs, Fit h addr v := by
  simp only [fit_iff, TVal.specsPresent, TVal.validTypes, TVal.settable, TVal.flatPtrs, specsPresentElems_eq,
    validTypesElems_eq, settableElems_eq, flatPtrsElems_eq, List.all_eq_true, Bool.and_eq_true]
  constructor
  · rintro ⟨h1, h2, h3, h4⟩
    exact ⟨h3.1, fun f hf => ⟨h1 f hf, h2 f hf, h3.2 f hf, h4 f hf⟩⟩
  · intro h1
    exact ⟨fun f hf => (h1.2 f hf).1, fun f hf => (h1.2 f hf).2.1, ⟨h1.1, fun f hf => (h1.2 f hf).2.2.1⟩,
      fun f hf => (h1.2 f hf).2.2.2⟩

theorem fit_slice {h : Heap} {addr : Bool} {vs : List TVal} :
    Fit h addr (.slice vs) ↔ ∀ v ∈ vs, Fit h true v := by
  simp only [fit_iff, TVal.specsPresent, TVal.validTypes, TVal.settable, TVal.flatPtrs, specsPresentElems_eq,
    validTypesElems_eq, settableElems_eq, flatPtrsElems_eq, List.all_eq_true]
  constructor
  · rintro ⟨h1, h2, h3, h4⟩
    exact fun f hf => ⟨h1 f hf, h2 f hf, h3 f hf, h4 f hf⟩
  · intro h1
    exact ⟨fun f hf => (h1 f hf).1, fun f hf => (h1 f hf).2.1, fun f hf => (h1 f hf).2.2.1,
      fun f hf => (h1 f hf).2.2.2⟩

theorem fit_map {h : Heap} {addr : Bool} {es : List (TVal × TVal)} :
    Fit h addr (.map es) ↔ ∀ e ∈ es, Fit h false e.1 ∧ Fit h false e.2 := by
  simp only [fit_iff, TVal.specsPresent, TVal.validTypes, TVal.settable, TVal.flatPtrs, specsPresentEntries_eq,
    validTypesEntries_eq, settableEntries_eq, flatPtrsEntries_eq, List.all_eq_true, Bool.and_eq_true]
  constructor
  · rintro ⟨h1, h2, h3, h4⟩ e he
    exact ⟨⟨(h1 e he).1, (h2 e he).1, (h3 e he).1, (h4 e he).1⟩, (h1 e he).2, (h2 e he).2, (h3 e he).2, (h4 e he).2⟩
  · intro h1
    exact ⟨fun e he => ⟨(h1 e he).1.1, (h1 e he).2.1⟩, fun e he => ⟨(h1 e he).1.2.1, (h1 e he).2.2.1⟩,
      fun e he => ⟨(h1 e he).1.2.2.1, (h1 e he).2.2.2.1⟩, fun e he => ⟨(h1 e he).1.2.2.2, (h1 e he).2.2.2.2⟩⟩

theorem fit_ptr {h : Heap} {addr : Bool} {v : TVal} :
    Fit h addr (.ptr v) ↔ v.isIface = false ∧ Fit h true v := by
  simp only [fit_iff, TVal.specsPresent, TVal.validTypes, TVal.settable, TVal.flatPtrs, Bool.and_eq_true,
    Bool.not_eq_true']
  tauto

theorem fit_iface {h : Heap} {addr : Bool} {acc : Accepts} {v : TVal} (hc : v.isConv = false) :
    Fit h addr (.iface acc v) ↔ Fit h false v := by
  simp only [fit_iff, validTypes_iface _ hc, TVal.specsPresent, TVal.settable, TVal.flatPtrs]

theorem fit_conv {h : Heap} {addr : Bool} {acc : Accepts} {v : TVal} (hc : v.isConv = true) :
    Fit h addr (.iface acc v) ↔ (TVal.iface acc v).validTypes = true := by
  cases v <;> simp only [TVal.isConv, Bool.false_eq_true] at hc <;>
    simp [fit_iff, TVal.specsPresent, TVal.settable, TVal.flatPtrs]

theorem mem_setMapIndex {m : List (TVal × TVal)} {k v : TVal} {P : TVal × TVal → Prop} (hm : ∀ e ∈ m, P e)
    (hkv : P (k, v)) (hmix : ∀ k' v', P (k', v') → P (k', v)) : ∀ e ∈ setMapIndex m k v, P e := by
  induction m with
  | nil => simpa [setMapIndex] using hkv
  | cons x m ih =>
    rw [setMapIndex]
    split
    · intro e he
      rcases List.mem_cons.1 he with rfl | he
      · exact hmix x.1 x.2 (hm x (by simp))
      · exact hm e (by simp [he])
    · intro e he
      rcases List.mem_cons.1 he with rfl | he
      · exact hm _ (by simp)
      · exact ih (fun e he => hm e (by simp [he])) e he

theorem fit_fold {h : Heap} (es : List (TVal × TVal)) : ∀ (m : List (TVal × TVal)),
    (∀ e ∈ m, Fit h false e.1 ∧ Fit h false e.2) → (∀ e ∈ es, Fit h false e.1 ∧ Fit h false e.2) →
    ∀ e ∈ es.foldl (fun m e => setMapIndex m e.1 e.2) m, Fit h false e.1 ∧ Fit h false e.2 := by
  induction es with
  | nil => intro m hm _; simpa using hm
  | cons x es ih =>
    intro m hm hes
    rw [List.foldl_cons]
    refine ih _ (mem_setMapIndex (P := fun e => Fit h false e.1 ∧ Fit h false e.2) hm (hes x (by simp)) ?_)
      fun e he => hes e (by simp [he])
    exact fun k' v' hk => ⟨hk.1, (hes x (by simp)).2⟩

/-- What qualification gives is as fit as what it was given. -/
def StaysFit (h : Heap) (addr : Bool) (v : TVal) (r : TVal × Bool) : Prop :=
  Fit h addr r.1 ∧ r.1.isIface = v.isIface ∧ (v.isConv = false → r.1.isConv = false)

theorem StaysFit.same {h : Heap} {addr c : Bool} {v : TVal} (hv : Fit h addr v) : StaysFit h addr v (v, c) :=
  ⟨hv, rfl, id⟩

theorem fit_converted {h : Heap} {addr : Bool} {acc : Accepts} {v : TVal} {o : Outcome TypeName}
    (hf : Fit h addr (.iface acc v)) (hv : convertedValid o = true) :
    Gives (StaysFit h addr (.iface acc v)) (qualifyConverted acc (.iface acc v) o) := by
  cases o with
  | ok t =>
    refine .bind (Q := fun t' => t'.valid = true) (gives_lift fun a ha => by cases ha; exact hv) fun t' ht' => ?_
    refine .bind (gives_qualifyType ht') fun r hr => ?_
    obtain ⟨t2, c⟩ := r
    refine .ite (fun _ => .pure ⟨?_, rfl, fun _ => rfl⟩) fun _ => .pure (.same hf)
    exact (fit_conv rfl).2 (by simpa [TVal.validTypes] using hr)
  | panic => simp [convertedValid] at hv
  | hang => simp [convertedValid] at hv

theorem fit_object {h : Heap} {addr : Bool} {acc : Accepts} {v : TVal} {s : SymbolOrMethodRef}
    (hf : Fit h addr (.iface acc v)) : Gives (StaysFit h addr (.iface acc v)) (qualifyObject acc (.iface acc v) s) := by
  cases s with
  | symbol s =>
    refine .bind (.trivial _) fun s' _ => .ite (fun _ => .pure ⟨?_, rfl, fun _ => rfl⟩) fun _ => .pure (.same hf)
    exact (fit_iface rfl).2 ⟨rfl, rfl, rfl, rfl⟩
  | method m =>
    refine .bind (.trivial _) fun s' _ => .ite (fun _ => .pure ⟨?_, rfl, fun _ => rfl⟩) fun _ => .pure (.same hf)
    exact (fit_iface rfl).2 (fit_ptr.2 ⟨rfl, rfl, rfl, rfl, rfl⟩)

theorem fit_specIn {h : Heap} {addr : Bool} {r : SpecRef} {v : TVal} {p : Package} (hf : Fit h addr v)
    (hi : v.isIface = false) : Gives (StaysFit h addr v) (qualifySpecIn r v p) := by
  refine .bind (.trivial _) fun n _ => .ite (fun _ => .pure ⟨⟨rfl, rfl, rfl, rfl⟩, ?_, fun _ => rfl⟩)
    fun _ => .pure (.same hf)
  rw [hi]; rfl

theorem gives_methodQualify {m : InterfaceMethod} (hv : m.signature.valid = true) :
    Gives (fun r => r.1.signature.valid = true) m.qualify := by
  rw [InterfaceMethod.qualify]
  refine .bind (gives_qualifySignature hv) fun r hr => ?_
  exact .pure hr

mutual
theorem fit_qualifyData (h : Heap) : ∀ (addr : Bool) (v : TVal), Fit h addr v →
    Gives (StaysFit h addr v) (qualifyData h addr v)
  | addr, .iface acc v, hf => by
    by_cases hc : v.isConv = true
    · have hv := (fit_conv hc).1 hf
      cases v <;> simp only [TVal.isConv, Bool.false_eq_true] at hc <;> rw [qualifyData]
      case typeName t => exact fit_converted hf (by simpa [TVal.validTypes, convertedValid] using hv)
      case reflectType t => exact fit_converted hf (by simpa [TVal.validTypes] using hv)
      case goType t => exact fit_converted hf (by simpa [TVal.validTypes] using hv)
      case goObject o => exact .bind (.trivial _) fun s _ => fit_object hf
      case goPackage g =>
        refine .bind (.trivial _) fun p _ => .bind (.trivial _) fun n _ =>
          .ite (fun _ => .pure ⟨?_, rfl, fun _ => rfl⟩) fun _ => .pure (.same hf)
        exact (fit_iface rfl).2 ⟨rfl, rfl, rfl, rfl⟩
    · have hc : v.isConv = false := by simpa using hc
      rw [qualifyData_iface _ _ _ hc]
      refine .bind (fit_qualifyData h false v ((fit_iface hc).1 hf)) fun r hr => ?_
      obtain ⟨v', c⟩ := r
      exact .pure ⟨(fit_iface (hr.2.2 hc)).2 hr.1, rfl, fun _ => rfl⟩
  | addr, .package p, hf => by
    rw [qualifyData]
    exact .bind (.trivial _) fun n _ => .ite (fun _ => .pure ⟨⟨rfl, rfl, rfl, rfl⟩, rfl, fun _ => rfl⟩)
      fun _ => .pure (.same hf)
  | addr, .symbol s, hf => by
    rw [qualifyData]
    exact .bind (.trivial _) fun n _ => .pure ⟨⟨rfl, rfl, rfl, rfl⟩, rfl, fun _ => rfl⟩
  | addr, .mref m, hf => by
    rw [qualifyData]
    exact .bind (.trivial _) fun n _ => .pure ⟨⟨rfl, rfl, rfl, rfl⟩, rfl, fun _ => rfl⟩
  | addr, .signature s, hf => by
    rw [qualifyData]
    refine .bind (gives_qualifySignature hf.valid) fun r hr => ?_
    exact .pure ⟨⟨rfl, hr, rfl, rfl⟩, rfl, fun _ => rfl⟩
  | addr, .spec r, hf => by
    rw [qualifyData]
    refine .bind (.trivial _) fun o _ => ?_
    cases o with
    | none => exact .pure (.same hf)
    | some p => exact .bind (.trivial _) fun f _ => fit_specIn hf rfl
  | addr, .specCopy _ _, hf => by
    rw [qualifyData]
    exact fit_specIn hf rfl
  | addr, .embed e, hf => by
    rw [qualifyData]
    exact .bind (.trivial _) fun r _ => .pure ⟨⟨rfl, rfl, rfl, rfl⟩, rfl, fun _ => rfl⟩
  | addr, .method m, hf => by
    rw [qualifyData]
    refine .bind (gives_methodQualify (m := m) hf.valid) fun r hr => ?_
    exact .pure ⟨⟨rfl, hr, rfl, rfl⟩, rfl, fun _ => rfl⟩
  | addr, .ptr v, hf => by
    rw [qualifyData]
    have hf := fit_ptr.1 hf
    refine .bind (fit_qualifyData h true v hf.2) fun r hr => ?_
    obtain ⟨v', c⟩ := r
    have hi : v'.isIface = false := hr.2.1.trans hf.1
    have hin : (if c = true then v'.inIface else v') = v' := by
      have : v'.inIface = v' := by cases v' <;> first | rfl | simp [TVal.isIface] at hi
      simp [this]
    refine .pure ⟨?_, rfl, fun _ => rfl⟩
    dsimp only
    rw [hin]
    exact fit_ptr.2 ⟨hi, hr.1⟩
  | addr, .struct fs, hf => by
    rw [qualifyData]
    refine .bind (fit_qualifyDataFields h addr false false fs (fit_struct.1 hf)) fun r hr => ?_
    exact .pure ⟨fit_struct.2 hr, rfl, fun _ => rfl⟩
  | addr, .array vs, hf => by
    rw [qualifyData]
    have hf := fit_array.1 hf
    refine .bind (fit_qualifyDataElems h addr addr false vs hf.2) fun r hr => ?_
    exact .pure ⟨fit_array.2 ⟨hf.1, hr⟩, rfl, fun _ => rfl⟩
  | addr, .slice vs, hf => by
    rw [qualifyData]
    refine .bind (fit_qualifyDataElems h true true false vs (fit_slice.1 hf)) fun r hr => ?_
    exact .pure ⟨fit_slice.2 hr, rfl, fun _ => rfl⟩
  | addr, .map es, hf => by
    rw [qualifyData]
    refine .bind (fit_qualifyDataEntries h es (fit_map.1 hf)) fun r hr => ?_
    refine .ite (fun _ => .pure ⟨?_, rfl, fun _ => rfl⟩) fun _ => .pure (.same hf)
    exact fit_map.2 (fit_fold _ _ (by simp) hr)
  | addr, .scalar _, hf => by rw [qualifyData] <;> first | exact .pure (.same hf) | simp
  | addr, .imports, hf => by rw [qualifyData] <;> first | exact .pure (.same hf) | simp
  | addr, .typeName _, hf => by rw [qualifyData] <;> first | exact .pure (.same hf) | simp
  | addr, .reflectType _, hf => by rw [qualifyData] <;> first | exact .pure (.same hf) | simp
  | addr, .goType _, hf => by rw [qualifyData] <;> first | exact .pure (.same hf) | simp
  | addr, .goObject _, hf => by rw [qualifyData] <;> first | exact .pure (.same hf) | simp
  | addr, .goPackage _, hf => by rw [qualifyData] <;> first | exact .pure (.same hf) | simp
theorem fit_qualifyDataFields (h : Heap) (addr : Bool) : ∀ (changed hidden : Bool) (fs : List (Bool × TVal)),
    (∀ f ∈ fs, f.1 = true ∧ Fit h addr f.2) →
    Gives (fun r => ∀ f ∈ r.1, f.1 = true ∧ Fit h addr f.2) (qualifyDataFields h addr changed hidden fs)
  | _, _, [], _ => by rw [qualifyDataFields]; exact .pure (by simp)
  | changed, hidden, (e, v) :: fs, hf => by
    rw [qualifyDataFields]
    refine .ite (fun _ => .panic) fun _ => ?_
    have h1 := hf (e, v) (by simp)
    refine .bind (fit_qualifyData h addr v h1.2) fun r hr => ?_
    obtain ⟨v', c⟩ := r
    refine .ite (fun _ => .panic) fun _ => ?_
    refine .bind (fit_qualifyDataFields h addr _ _ fs fun f hf' => hf f (by simp [hf'])) fun r hr' => .pure ?_
    intro f hf'
    rcases List.mem_cons.1 hf' with rfl | hf'
    · exact ⟨h1.1, hr.1⟩
    · exact hr' f hf'
theorem fit_qualifyDataElems (h : Heap) (addr s : Bool) : ∀ (changed : Bool) (vs : List TVal),
    (∀ v ∈ vs, Fit h addr v) → Gives (fun r => ∀ v ∈ r.1, Fit h addr v) (qualifyDataElems h addr s changed vs)
  | _, [], _ => by rw [qualifyDataElems]; exact .pure (by simp)
  | changed, v :: vs, hf => by
    rw [qualifyDataElems]
    refine .bind (fit_qualifyData h addr v (hf v (by simp))) fun r hr => ?_
    obtain ⟨v', c⟩ := r
    refine .ite (fun _ => .panic) fun _ => ?_
    refine .bind (fit_qualifyDataElems h addr s _ vs fun f hf' => hf f (by simp [hf'])) fun r hr' => .pure ?_
    intro f hf'
    rcases List.mem_cons.1 hf' with rfl | hf'
    · exact hr.1
    · exact hr' f hf'
theorem fit_qualifyDataEntries (h : Heap) : ∀ (es : List (TVal × TVal)),
    (∀ e ∈ es, Fit h false e.1 ∧ Fit h false e.2) →
    Gives (fun r => ∀ e ∈ r.1, Fit h false e.1 ∧ Fit h false e.2) (qualifyDataEntries h es)
  | [], _ => by rw [qualifyDataEntries]; exact .pure (by simp)
  | (k, v) :: es, hf => by
    rw [qualifyDataEntries]
    have h1 := hf (k, v) (by simp)
    refine .bind (fit_qualifyData h false k h1.1) fun r hr => ?_
    obtain ⟨k', ck⟩ := r
    refine .bind (fit_qualifyData h false v h1.2) fun r hr2 => ?_
    obtain ⟨v', cv⟩ := r
    refine .ite (fun _ => .panic) fun _ => ?_
    refine .bind (fit_qualifyDataEntries h es fun f hf' => hf f (by simp [hf'])) fun r hr' => .pure ?_
    intro f hf'
    rcases List.mem_cons.1 hf' with rfl | hf'
    · exact ⟨hr.1, hr2.1⟩
    · exact hr' f hf'
end

theorem ready_iff {h : Heap} {v : TVal} : v.Ready h ↔ Fit h true (.iface acceptsAll v) := by
  constructor
  · rintro ⟨h1, h2, h3, h4⟩
    exact ⟨by simpa [TVal.specsPresent] using h1, h2, by simpa [TVal.settable] using h3,
      by simpa [TVal.flatPtrs] using h4⟩
  · rintro ⟨h1, h2, h3, h4⟩
    exact ⟨by simpa [TVal.specsPresent] using h1, h2, by simpa [TVal.settable] using h3,
      by simpa [TVal.flatPtrs] using h4⟩

theorem ready_qualifyTemplateData {h : Heap} {v v' : TVal} {i j : Imports} (hv : v.Ready h)
    (hq : qualifyTemplateData h v i = (.ok v', j)) : v'.Ready h := by
  rw [qualifyTemplateData] at hq
  obtain ⟨⟨r, c⟩, k, h1, h2⟩ := IM.bind_eq_ok hq
  have hr := fit_qualifyData h true _ (ready_iff.1 hv) _ _ _ h1
  obtain ⟨w, hw⟩ := qualifyData_iface_shape h1
  dsimp only at hw h2 hr
  subst hw
  obtain ⟨rfl, -⟩ := pure_eq_ok h2
  exact ready_iff.2 hr.1

theorem returns_ready {h : Heap} {v : TVal} (hv : v.Ready h) : Returns (qualifyTemplateData h v) := by
  have hf := ready_iff.1 hv
  refine .bind (returns_qualifyData h true _ hf.present hf.valid hf.settable hf.flatPtrs) fun r => ?_
  obtain ⟨r, c⟩ := r
  cases r <;> exact .pure _

mutual
theorem specsPresent_mono {h h' : Heap} (hp : ∀ r, SpecRef.present h r = true → SpecRef.present h' r = true) : ∀ v : TVal,
    v.specsPresent h = true → v.specsPresent h' = true
  | .iface _ v, hv => by simpa [TVal.specsPresent] using specsPresent_mono hp v (by simpa [TVal.specsPresent] using hv)
  | .spec r, hv => by simpa [TVal.specsPresent] using hp r (by simpa [TVal.specsPresent] using hv)
  | .ptr v, hv => by simpa [TVal.specsPresent] using specsPresent_mono hp v (by simpa [TVal.specsPresent] using hv)
  | .struct fs, hv => by
    simpa [TVal.specsPresent] using specsPresent_monoFields hp fs (by simpa [TVal.specsPresent] using hv)
  | .array vs, hv => by
    simpa [TVal.specsPresent] using specsPresent_monoElems hp vs (by simpa [TVal.specsPresent] using hv)
  | .slice vs, hv => by
    simpa [TVal.specsPresent] using specsPresent_monoElems hp vs (by simpa [TVal.specsPresent] using hv)
  | .map es, hv => by
    simpa [TVal.specsPresent] using specsPresent_monoEntries hp es (by simpa [TVal.specsPresent] using hv)
  | .scalar _, _ | .package _, _ | .symbol _, _ | .mref _, _ | .signature _, _ | .specCopy _ _, _ | .embed _, _
  | .method _, _ | .imports, _ | .typeName _, _ | .reflectType _, _ | .goType _, _ | .goObject _, _
  | .goPackage _, _ => rfl
theorem specsPresent_monoFields {h h' : Heap} (hp : ∀ r, SpecRef.present h r = true → SpecRef.present h' r = true) :
    ∀ fs : List (Bool × TVal), specsPresentFields h fs = true → specsPresentFields h' fs = true
  | [], _ => rfl
  | (_, v) :: fs, hv => by
    simp only [specsPresentFields, Bool.and_eq_true] at hv ⊢
    exact ⟨specsPresent_mono hp v hv.1, specsPresent_monoFields hp fs hv.2⟩
theorem specsPresent_monoElems {h h' : Heap} (hp : ∀ r, SpecRef.present h r = true → SpecRef.present h' r = true) :
    ∀ vs : List TVal, specsPresentElems h vs = true → specsPresentElems h' vs = true
  | [], _ => rfl
  | v :: vs, hv => by
    simp only [specsPresentElems, Bool.and_eq_true] at hv ⊢
    exact ⟨specsPresent_mono hp v hv.1, specsPresent_monoElems hp vs hv.2⟩
theorem specsPresent_monoEntries {h h' : Heap} (hp : ∀ r, SpecRef.present h r = true → SpecRef.present h' r = true) :
    ∀ es : List (TVal × TVal), specsPresentEntries h es = true → specsPresentEntries h' es = true
  | [], _ => rfl
  | (k, v) :: es, hv => by
    simp only [specsPresentEntries, Bool.and_eq_true] at hv ⊢
    exact ⟨⟨specsPresent_mono hp k hv.1.1, specsPresent_mono hp v hv.1.2⟩, specsPresent_monoEntries hp es hv.2⟩
end

end Gopoet
