import Mathlib.Tactic.Tauto
import Verif.Proof.TwinLemmas
import Verif.Spec.Copyable
/-! When the qualification of template data returns. -/

namespace Gopoet
open Imports

theorem pointsToInterface_iff : ∀ (v : TVal), PointsToInterface v ↔ v.ifacePtr = true := by
  intro v
  constructor
  · intro h
    induction h with
    | one => rfl
    | @more v h ih => cases v <;> first | rfl | exact ih
  · intro h
    fun_induction TVal.ifacePtr v with
    | case1 => exact .one
    | case2 v _ ih => exact .more (ih h)
    | case3 => exact absurd h Bool.false_ne_true

/-- Under the imports that there are when the packages `l` have been registered (or any later ones), `C`
tells whether `x` returns. -/
def Decides {α} (l : List Package) (C : Imports → Prop) (x : IM α) : Prop :=
  ∀ i k, Ext (i.after (registerAll l)) k → ((∃ a j, x i = (.ok a, j)) ↔ C k)

namespace Decides
variable {α β : Type}

theorem of_returns {l : List Package} {C : Imports → Prop} {x : IM α} (hx : Returns x) (hC : ∀ k, C k) :
    Decides l C x := fun i k _ => ⟨fun _ => hC k, fun _ => hx i⟩

theorem pure {C : Imports → Prop} (a : α) (hC : ∀ k, C k) : Decides [] C (pure a : IM α) :=
  of_returns (.pure a) hC

theorem congr {l : List Package} {C D : Imports → Prop} {x : IM α} (hx : Decides l C x) (h : ∀ k, C k ↔ D k) :
    Decides l D x := fun i k hk => (hx i k hk).trans (h k)

theorem cast {l l' : List Package} {C : Imports → Prop} {x : IM α} (hx : Decides l C x) (h : l = l') :
    Decides l' C x := h ▸ hx

theorem bind {l l' : List Package} {C D : Imports → Prop} {E : α → Imports → Prop} {F : Imports → α → Prop}
    {x : IM α} {f : α → IM β} (he : Effect l x) (hp : Post F x) (hx : Decides l C x)
    (hf : ∀ a, Decides l' (E a) (f a)) (hE : ∀ k a, F k a → (E a k ↔ D k)) :
    Decides (l ++ l') (fun k => C k ∧ D k) (x >>= f) := by
  intro i k hk
  have ha : i.after (registerAll (l ++ l')) = (i.after (registerAll l)).after (registerAll l') := by
    simp [registerAll, Imports.after]
  rw [ha] at hk
  have hk' : Ext (i.after (registerAll l)) k := (after_registerAll _ _).ext.trans hk
  constructor
  · rintro ⟨b, m, h⟩
    obtain ⟨a, j, h1, h2⟩ := IM.bind_eq_ok h
    obtain rfl := he _ _ _ h1
    exact ⟨(hx i k hk').1 ⟨_, _, h1⟩, (hE k a ((hp _ _ _ h1).2 k hk')).1 ((hf a _ k hk).1 ⟨_, _, h2⟩)⟩
  · rintro ⟨c, d⟩
    obtain ⟨a, j, h1⟩ := (hx i k hk').2 c
    obtain rfl := he _ _ _ h1
    obtain ⟨b, m, h2⟩ := (hf a _ k hk).2 ((hE k a ((hp _ _ _ h1).2 k hk')).2 d)
    exact ⟨b, m, by rw [IM.bind_ok h1, h2]⟩

/-- followed by something that always returns -/
theorem andThen {l : List Package} {C : Imports → Prop} {x : IM α} {f : α → IM β} (_ : Effect l x)
    (hx : Decides l C x) (hf : ∀ a, Returns (f a)) : Decides l C (x >>= f) := by
  intro i k hk
  constructor
  · rintro ⟨b, m, h⟩
    obtain ⟨a, j, h1, h2⟩ := IM.bind_eq_ok h
    exact (hx i k hk).1 ⟨_, _, h1⟩
  · intro c
    obtain ⟨a, j, h1⟩ := (hx i k hk).2 c
    obtain ⟨b, m, h2⟩ := hf a j
    exact ⟨b, m, by rw [IM.bind_ok h1, h2]⟩

theorem ite_panic {l : List Package} {C : Imports → Prop} {c : Prop} [Decidable c] {x : IM α}
    (hx : Decides l C x) : Decides l (fun k => ¬ c ∧ C k) (if c then IM.panic else x) := by
  intro i k hk
  by_cases hc : c
  · simp [hc]
  · simp only [hc, if_false, not_false_eq_true, true_and]
    exact hx i k hk

end Decides

/-- the fields, as the loop goes over them -/
def LoopFields (h : Heap) (n : GoString → GoString) (addr changed hidden : Bool) (fs : List (Bool × TVal)) : Prop :=
  CopyableFields h n addr fs ∧ ((changed = true ∨ requalifyFields h n fs ≠ fs) → ∀ f ∈ fs, f.1 = true) ∧
    (changed = false → hidden = true → requalifyFields h n fs = fs)

/-- the elements, as the loop goes over them -/
def LoopElems (h : Heap) (n : GoString → GoString) (addr sl changed : Bool) (vs : List TVal) : Prop :=
  CopyableElems h n addr vs ∧ (changed = false → requalifyElems h n vs ≠ vs → sl = true)

theorem leaf_decides (h : Heap) (addr : Bool) {v : TVal} (hs : v.specsPresent h = true) (hv : v.validTypes = true)
    (ha : v.settable addr = true) (hf : v.flatPtrs = true) (hc : ∀ n, v.Copyable h n addr) :
    Decides (v.mentions h) (fun k => v.Copyable h k.qualifierOf addr) (qualifyData h addr v) :=
  .of_returns (returns_qualifyData h addr v hs hv ha hf) fun _ => hc _

mutual
theorem decides_qualifyData (h : Heap) : ∀ (addr : Bool) (v : TVal), v.validTypes = true →
    Decides (v.mentions h) (fun k => v.Copyable h k.qualifierOf addr) (qualifyData h addr v)
  | addr, .iface acc v, hv => by
    by_cases hc : v.isConv = true
    · refine .of_returns (returns_qualifyData h addr _ ?_ hv ?_ ?_) fun k => ?_ <;>
        cases v <;> simp only [TVal.isConv, Bool.false_eq_true] at hc <;>
        simp [TVal.specsPresent, TVal.settable, TVal.flatPtrs, TVal.Copyable]
    · have hc : v.isConv = false := by simpa using hc
      rw [qualifyData_iface _ _ _ hc, mentions_iface _ _ hc]
      rw [validTypes_iface _ hc] at hv
      refine (Decides.andThen (effect_qualifyData h false v) (decides_qualifyData h false v hv)
        fun r => .pure _).congr fun k => ?_
      rw [TVal.Copyable]
  | addr, .package p, hv => leaf_decides h addr rfl hv (by simp [TVal.settable]) (by simp [TVal.flatPtrs]) (by simp [TVal.Copyable])
  | addr, .symbol s, hv => leaf_decides h addr rfl hv (by simp [TVal.settable]) (by simp [TVal.flatPtrs]) (by simp [TVal.Copyable])
  | addr, .mref m, hv => leaf_decides h addr rfl hv (by simp [TVal.settable]) (by simp [TVal.flatPtrs]) (by simp [TVal.Copyable])
  | addr, .signature s, hv => leaf_decides h addr rfl hv (by simp [TVal.settable]) (by simp [TVal.flatPtrs]) (by simp [TVal.Copyable])
  | addr, .spec r, hv => by
    by_cases hp : r.present h = true
    · exact .of_returns (returns_qualifyData h addr _ (by simpa [TVal.specsPresent] using hp) hv rfl rfl)
        fun k => by simpa [TVal.Copyable] using hp
    · intro i k _
      dsimp only
      rw [TVal.Copyable]
      refine ⟨fun hx => ?_, fun hx => absurd hx hp⟩
      obtain ⟨a, j, hx⟩ := hx
      rw [qualifyData] at hx
      obtain ⟨q, i1, h1, h2⟩ := IM.bind_eq_ok hx
      obtain ⟨h1, -⟩ := lift_eq_ok h1
      rw [SpecRef.present, h1]
      cases q with
      | none => rfl
      | some p =>
        obtain ⟨f, i2, h3, -⟩ := IM.bind_eq_ok h2
        obtain ⟨h3, -⟩ := lift_eq_ok h3
        simp [deref_eq_ok h3]
  | addr, .specCopy _ _, hv => leaf_decides h addr rfl hv (by simp [TVal.settable]) (by simp [TVal.flatPtrs]) (by simp [TVal.Copyable])
  | addr, .embed e, hv => leaf_decides h addr rfl hv (by simp [TVal.settable]) (by simp [TVal.flatPtrs]) (by simp [TVal.Copyable])
  | addr, .method m, hv => leaf_decides h addr rfl hv (by simp [TVal.settable]) (by simp [TVal.flatPtrs]) (by simp [TVal.Copyable])
  | addr, .ptr v, hv => by
    have hv : v.validTypes = true := by simpa [TVal.validTypes] using hv
    rw [qualifyData]
    refine ((Decides.andThen (effect_qualifyData h true v) (decides_qualifyData h true v hv)
        fun r => .pure _).congr fun k => ?_).cast ?_
    · rw [TVal.Copyable]
    · rw [TVal.mentions]
  | addr, .struct fs, hv => by
    have hv : validTypesFields fs = true := by simpa [TVal.validTypes] using hv
    rw [qualifyData]
    refine ((Decides.andThen (effect_qualifyDataFields h addr false false fs)
      (decides_qualifyDataFields h addr false false fs hv) fun r => .pure _).congr fun k => ?_).cast ?_
    · rw [TVal.Copyable, LoopFields]
      simp
    · rw [TVal.mentions]
  | addr, .array vs, hv => by
    have hv : validTypesElems vs = true := by simpa [TVal.validTypes] using hv
    rw [qualifyData]
    refine ((Decides.andThen (effect_qualifyDataElems h addr addr false vs)
      (decides_qualifyDataElems h addr addr false vs hv) fun r => .pure _).congr fun k => ?_).cast ?_
    · rw [TVal.Copyable, LoopElems]
      simp
    · rw [TVal.mentions]
  | addr, .slice vs, hv => by
    have hv : validTypesElems vs = true := by simpa [TVal.validTypes] using hv
    rw [qualifyData]
    refine ((Decides.andThen (effect_qualifyDataElems h true true false vs)
      (decides_qualifyDataElems h true true false vs hv) fun r => .pure _).congr fun k => ?_).cast ?_
    · rw [TVal.Copyable, LoopElems]
      simp
    · rw [TVal.mentions]
  | addr, .map es, hv => by
    have hv : validTypesEntries es = true := by simpa [TVal.validTypes] using hv
    rw [qualifyData]
    refine ((Decides.andThen (effect_qualifyDataEntries h es)
      (decides_qualifyDataEntries h es hv) fun r => .ite (.pure _) (.pure _)).congr fun k => ?_).cast ?_
    · rw [TVal.Copyable]
    · rw [TVal.mentions]
  | addr, .scalar _, hv => leaf_decides h addr rfl hv (by simp [TVal.settable]) (by simp [TVal.flatPtrs]) (by simp [TVal.Copyable])
  | addr, .imports, hv => leaf_decides h addr rfl hv (by simp [TVal.settable]) (by simp [TVal.flatPtrs]) (by simp [TVal.Copyable])
  | addr, .typeName _, hv => leaf_decides h addr rfl hv (by simp [TVal.settable]) (by simp [TVal.flatPtrs]) (by simp [TVal.Copyable])
  | addr, .reflectType _, hv => leaf_decides h addr rfl hv (by simp [TVal.settable]) (by simp [TVal.flatPtrs]) (by simp [TVal.Copyable])
  | addr, .goType _, hv => leaf_decides h addr rfl hv (by simp [TVal.settable]) (by simp [TVal.flatPtrs]) (by simp [TVal.Copyable])
  | addr, .goObject _, hv => leaf_decides h addr rfl hv (by simp [TVal.settable]) (by simp [TVal.flatPtrs]) (by simp [TVal.Copyable])
  | addr, .goPackage _, hv => leaf_decides h addr rfl hv (by simp [TVal.settable]) (by simp [TVal.flatPtrs]) (by simp [TVal.Copyable])
theorem decides_qualifyDataFields (h : Heap) (addr : Bool) : ∀ (changed hidden : Bool) (fs : List (Bool × TVal)),
    validTypesFields fs = true →
    Decides (mentionsFields h fs) (fun k => LoopFields h k.qualifierOf addr changed hidden fs)
      (qualifyDataFields h addr changed hidden fs)
  | changed, hidden, [], _ => by
    rw [qualifyDataFields, mentionsFields]
    exact .pure _ fun k => by simp [LoopFields, CopyableFields, requalifyFields]
  | changed, hidden, (e, v) :: fs, hv => by
    rw [qualifyDataFields, mentionsFields]
    simp only [validTypesFields, Bool.and_eq_true] at hv
    refine (Decides.ite_panic (Decides.bind (D := fun k =>
      ¬ ((changed = true ∧ e = false) ∨
          (changed = false ∧ v.requalify h k.qualifierOf ≠ v ∧ (hidden = true ∨ e = false)) ∨
          (v.requalify h k.qualifierOf ≠ v ∧ PointsToInterface v)) ∧
        CopyableFields h k.qualifierOf addr fs ∧
        ((changed = true ∨ v.requalify h k.qualifierOf ≠ v ∨ requalifyFields h k.qualifierOf fs ≠ fs) → ∀ f ∈ fs, f.1 = true) ∧
        (changed = false → v.requalify h k.qualifierOf = v → (hidden = true ∨ e = false) →
          requalifyFields h k.qualifierOf fs = fs))
      (effect_qualifyData h addr v) (post_qualifyData h addr v hv.1)
      (decides_qualifyData h addr v hv.1)
      (fun r => Decides.ite_panic (Decides.andThen (effect_qualifyDataFields h addr _ _ fs)
        (decides_qualifyDataFields h addr _ _ fs hv.2) fun r' => .pure _)) fun k r hr => ?_)).congr fun k => ?_
    · obtain ⟨w, c⟩ := r
      obtain ⟨hr, -⟩ := hr
      dsimp only at hr ⊢
      rw [pointsToInterface_iff, LoopFields]
      cases c <;> cases changed <;> cases hidden <;> cases e <;> simp_all
    · simp only [LoopFields, CopyableFields, requalifyFields, List.forall_mem_cons, ne_eq, List.cons.injEq,
        Prod.mk.injEq, true_and]
      cases e <;> cases addr <;> cases changed <;> cases hidden <;> simp <;> tauto
theorem decides_qualifyDataElems (h : Heap) (addr sl : Bool) : ∀ (changed : Bool) (vs : List TVal),
    validTypesElems vs = true →
    Decides (mentionsElems h vs) (fun k => LoopElems h k.qualifierOf addr sl changed vs)
      (qualifyDataElems h addr sl changed vs)
  | changed, [], _ => by
    rw [qualifyDataElems, mentionsElems]
    exact .pure _ fun k => by simp [LoopElems, CopyableElems, requalifyElems]
  | changed, v :: vs, hv => by
    rw [qualifyDataElems, mentionsElems]
    simp only [validTypesElems, Bool.and_eq_true] at hv
    refine (Decides.bind (D := fun k =>
      ¬ ((changed = false ∧ v.requalify h k.qualifierOf ≠ v ∧ sl = false) ∨
          (v.requalify h k.qualifierOf ≠ v ∧ PointsToInterface v)) ∧
        CopyableElems h k.qualifierOf addr vs ∧
        (changed = false → v.requalify h k.qualifierOf = v → requalifyElems h k.qualifierOf vs ≠ vs → sl = true))
      (effect_qualifyData h addr v) (post_qualifyData h addr v hv.1)
      (decides_qualifyData h addr v hv.1)
      (fun r => Decides.ite_panic (Decides.andThen (effect_qualifyDataElems h addr sl _ vs)
        (decides_qualifyDataElems h addr sl _ vs hv.2) fun r' => .pure _)) fun k r hr => ?_).congr fun k => ?_
    · obtain ⟨w, c⟩ := r
      obtain ⟨hr, -⟩ := hr
      dsimp only at hr ⊢
      rw [pointsToInterface_iff, LoopElems]
      cases c <;> cases changed <;> cases sl <;> simp_all
    · simp only [LoopElems, CopyableElems, requalifyElems, ne_eq, List.cons.injEq]
      cases addr <;> cases changed <;> cases sl <;> simp <;> tauto
theorem decides_qualifyDataEntries (h : Heap) : ∀ (es : List (TVal × TVal)),
    validTypesEntries es = true →
    Decides (mentionsEntries h es) (fun k => CopyableEntries h k.qualifierOf es) (qualifyDataEntries h es)
  | [], _ => by
    rw [qualifyDataEntries, mentionsEntries]
    exact .pure _ fun k => by simp [CopyableEntries]
  | (a, v) :: es, hv => by
    rw [qualifyDataEntries, mentionsEntries]
    simp only [validTypesEntries, Bool.and_eq_true] at hv
    refine (Decides.bind (D := fun k => v.Copyable h k.qualifierOf false ∧
        ¬ ((a.requalify h k.qualifierOf ≠ a ∧ PointsToInterface a) ∨
          (v.requalify h k.qualifierOf ≠ v ∧ PointsToInterface v)) ∧ CopyableEntries h k.qualifierOf es)
      (effect_qualifyData h false a) (post_qualifyData h false a hv.1.1)
      (decides_qualifyData h false a hv.1.1) (fun r => Decides.bind (D := fun k =>
        ¬ ((r.2 = true ∧ PointsToInterface a) ∨
          (v.requalify h k.qualifierOf ≠ v ∧ PointsToInterface v)) ∧ CopyableEntries h k.qualifierOf es)
      (effect_qualifyData h false v) (post_qualifyData h false v hv.1.2)
      (decides_qualifyData h false v hv.1.2)
      (fun r => Decides.ite_panic (Decides.andThen (effect_qualifyDataEntries h es)
        (decides_qualifyDataEntries h es hv.2) fun r' => .pure _)) fun k r' hr => ?_)
      fun k r hr => ?_).congr fun k => ?_
    · obtain ⟨w, c⟩ := r'
      obtain ⟨w', c'⟩ := r
      obtain ⟨hr, -⟩ := hr
      dsimp only at hr ⊢
      rw [pointsToInterface_iff, pointsToInterface_iff]
      cases c <;> cases c' <;> simp_all
    · obtain ⟨w, c⟩ := r
      obtain ⟨hr, -⟩ := hr
      dsimp only at hr ⊢
      cases c <;> simp_all
    · simp only [CopyableEntries]
      tauto
end

end Gopoet
