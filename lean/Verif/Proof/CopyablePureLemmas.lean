import Verif.Proof.CopyableLemmas
import Verif.Proof.DataPure
import Verif.Spec.CopyablePure
/-! When the qualification of template data returns, without `unsafe`. -/

namespace Gopoet
open Imports

theorem Image.ok {α β : Type} {g : α → β} {x : IM α} {y : IM β} (hi : Image True g x y) {i j : Imports} {a : α}
    (hx : x i = (.ok a, j)) : y i = (.ok (g a), j) := by
  have h := hi i
  rw [hx] at h
  rcases h with ⟨_, h⟩ | h
  · simp at h
  · exact h

theorem Image.effect {α β : Type} {g : α → β} {x : IM α} {y : IM β} {l : List Package} (hi : Image True g x y)
    (hy : Effect l y) : Effect l x := fun i a j hx => hy i (g a) j (hi.ok hx)

theorem Image.post {α β : Type} {g : α → β} {x : IM α} {y : IM β} {F : Imports → β → Prop} (hi : Image True g x y)
    (hy : Post F y) : Post (fun k a => F k (g a)) x := fun i j a hx => hy i j (g a) (hi.ok hx)

/-- the fields, as the loop goes over them -/
def LoopFieldsPure (h : Heap) (n : GoString → GoString) (addr changed hidden : Bool) (fs : List (Bool × TVal)) : Prop :=
  CopyablePureFields h n addr fs ∧
    ((changed = true ∨ requalifyFields h n (coverFields fs) ≠ coverFields fs) → ∀ f ∈ fs, f.1 = true) ∧
    (changed = false → hidden = true → requalifyFields h n (coverFields fs) = coverFields fs)

/-- the elements, as the loop goes over them -/
def LoopElemsPure (h : Heap) (n : GoString → GoString) (addr sl changed : Bool) (vs : List TVal) : Prop :=
  CopyablePureElems h n addr vs ∧ (changed = false → requalifyElems h n (coverElems vs) ≠ coverElems vs → sl = true)

theorem decides_leafPure (h : Heap) (addr : Bool) {v : TVal} (hl : v.leaf = true) (hv : v.cover.validTypes = true)
    (hc : ∀ n, v.CopyablePure h n addr ↔ v.Copyable h n addr) :
    Decides (v.cover.mentions h) (fun k => v.CopyablePure h k.qualifierOf addr) (qualifyDataPure h addr v) := by
  rw [(bare_of_leaf hl).2] at hv ⊢
  rw [pure_leaf h addr hl]
  exact (decides_qualifyData h addr v hv).congr fun k => (hc _).symm

mutual
theorem decides_pure (h : Heap) : ∀ (addr : Bool) (v : TVal), v.exportedKeys = true → v.cover.validTypes = true →
    Decides (v.cover.mentions h) (fun k => v.CopyablePure h k.qualifierOf addr) (qualifyDataPure h addr v)
  | addr, .iface acc v, he, hv => by
    cases hc : v.isConv with
    | true =>
      refine decides_leafPure h addr (by simpa [TVal.leaf] using hc) hv fun n => ?_
      cases v <;> simp only [TVal.isConv, Bool.false_eq_true] at hc <;> simp [TVal.CopyablePure, TVal.Copyable]
    | false =>
      have he : v.exportedKeys = true := by simpa [TVal.exportedKeys] using he
      rw [TVal.cover, validTypes_iface _ (by rw [isConv_cover, hc])] at hv
      rw [TVal.cover, pure_iface _ _ _ hc, mentions_iface _ _ (by rw [isConv_cover, hc])]
      refine (Decides.andThen ((cover_pure h false v he).effect (effect_qualifyData h false _))
        (decides_pure h false v he hv) fun r => .pure _).congr fun k => ?_
      rw [TVal.CopyablePure]
  | addr, .ptr v, he, hv => by
    have he : v.exportedKeys = true := by simpa [TVal.exportedKeys] using he
    have hv : v.cover.validTypes = true := by simpa [TVal.cover, TVal.validTypes] using hv
    rw [qualifyDataPure, TVal.cover, TVal.mentions]
    refine (Decides.andThen ((cover_pure h true v he).effect (effect_qualifyData h true _))
      (decides_pure h true v he hv) fun r => .pure _).congr fun k => ?_
    rw [TVal.CopyablePure]
  | addr, .struct fs, he, hv => by
    have he : exportedKeysFields fs = true := by simpa [TVal.exportedKeys] using he
    have hv : validTypesFields (coverFields fs) = true := by simpa [TVal.cover, TVal.validTypes] using hv
    rw [qualifyDataPure, TVal.cover, TVal.mentions]
    refine (Decides.andThen ((cover_pureFields h addr false false fs he).effect (effect_qualifyDataFields h addr _ _ _))
      (decides_pureFields h addr false false fs he hv) fun r => .pure _).congr fun k => ?_
    rw [TVal.CopyablePure, LoopFieldsPure]
    simp
  | addr, .array vs, he, hv => by
    have he : exportedKeysElems vs = true := by simpa [TVal.exportedKeys] using he
    have hv : validTypesElems (coverElems vs) = true := by simpa [TVal.cover, TVal.validTypes] using hv
    rw [qualifyDataPure, TVal.cover, TVal.mentions]
    refine (Decides.andThen ((cover_pureElems h addr addr false vs he).effect (effect_qualifyDataElems h addr _ _ _))
      (decides_pureElems h addr addr false vs he hv) fun r => .pure _).congr fun k => ?_
    rw [TVal.CopyablePure, LoopElemsPure]
    simp
  | addr, .slice vs, he, hv => by
    have he : exportedKeysElems vs = true := by simpa [TVal.exportedKeys] using he
    have hv : validTypesElems (coverElems vs) = true := by simpa [TVal.cover, TVal.validTypes] using hv
    rw [qualifyDataPure, TVal.cover, TVal.mentions]
    refine (Decides.andThen ((cover_pureElems h true true false vs he).effect (effect_qualifyDataElems h true _ _ _))
      (decides_pureElems h true true false vs he hv) fun r => .pure _).congr fun k => ?_
    rw [TVal.CopyablePure, LoopElemsPure]
    simp
  | addr, .map es, he, hv => by
    have he : exportedKeysEntries es = true := by simpa [TVal.exportedKeys] using he
    have hv : validTypesEntries (coverEntries es) = true := by simpa [TVal.cover, TVal.validTypes] using hv
    rw [qualifyDataPure, TVal.cover, TVal.mentions]
    refine (Decides.andThen ((cover_pureEntries h es he).effect (effect_qualifyDataEntries h _))
      (decides_pureEntries h es he hv) fun r => .ite (.pure _) (.pure _)).congr fun k => ?_
    rw [TVal.CopyablePure]
  | addr, .scalar _, _, hv | addr, .package _, _, hv | addr, .symbol _, _, hv | addr, .mref _, _, hv
  | addr, .signature _, _, hv | addr, .spec _, _, hv | addr, .specCopy _ _, _, hv | addr, .embed _, _, hv
  | addr, .method _, _, hv | addr, .imports, _, hv | addr, .typeName _, _, hv | addr, .reflectType _, _, hv
  | addr, .goType _, _, hv | addr, .goObject _, _, hv | addr, .goPackage _, _, hv =>
    decides_leafPure h addr rfl hv (by simp [TVal.CopyablePure, TVal.Copyable])
theorem decides_pureFields (h : Heap) (addr : Bool) : ∀ (changed hidden : Bool) (fs : List (Bool × TVal)),
    exportedKeysFields fs = true → validTypesFields (coverFields fs) = true →
    Decides (mentionsFields h (coverFields fs)) (fun k => LoopFieldsPure h k.qualifierOf addr changed hidden fs)
      (qualifyDataFieldsPure h addr changed hidden fs)
  | changed, hidden, [], _, _ => by
    rw [qualifyDataFieldsPure, coverFields, mentionsFields]
    exact .pure _ fun k => by simp [LoopFieldsPure, CopyablePureFields, coverFields, requalifyFields]
  | changed, hidden, (true, v) :: fs, he, hv => by
    simp only [exportedKeysFields, Bool.not_true, Bool.false_or, Bool.and_eq_true] at he
    simp only [coverFields, if_true, validTypesFields, Bool.and_eq_true] at hv
    rw [qualifyDataFieldsPure, coverFields, if_pos rfl, mentionsFields]
    refine (Decides.bind (D := fun k =>
      ¬ ((changed = false ∧ v.cover.requalify h k.qualifierOf ≠ v.cover ∧ hidden = true) ∨
          (v.cover.requalify h k.qualifierOf ≠ v.cover ∧ PointsToInterface v)) ∧
        CopyablePureFields h k.qualifierOf addr fs ∧
        ((changed = true ∨ v.cover.requalify h k.qualifierOf ≠ v.cover ∨
          requalifyFields h k.qualifierOf (coverFields fs) ≠ coverFields fs) → ∀ f ∈ fs, f.1 = true) ∧
        (changed = false → v.cover.requalify h k.qualifierOf = v.cover → hidden = true →
          requalifyFields h k.qualifierOf (coverFields fs) = coverFields fs))
      ((cover_pure h addr v he.1).effect (effect_qualifyData h addr _))
      ((cover_pure h addr v he.1).post (post_qualifyData h addr _ hv.1))
      (decides_pure h addr v he.1 hv.1)
      (fun r => Decides.ite_panic (Decides.andThen
        ((cover_pureFields h addr _ _ fs he.2).effect (effect_qualifyDataFields h addr _ _ _))
        (decides_pureFields h addr _ _ fs he.2 hv.2) fun r' => .pure _)) fun k r hr => ?_).congr fun k => ?_
    · obtain ⟨w, c⟩ := r
      obtain ⟨hr, -⟩ := hr
      dsimp only at hr ⊢
      rw [pointsToInterface_iff, LoopFieldsPure]
      cases c <;> cases changed <;> cases hidden <;> simp_all
    · simp only [LoopFieldsPure, CopyablePureFields, coverFields, if_true, requalifyFields, List.forall_mem_cons, ne_eq,
        List.cons.injEq, Prod.mk.injEq, true_and]
      cases addr <;> cases changed <;> cases hidden <;> simp <;> tauto
  | changed, hidden, (false, v) :: fs, he, hv => by
    simp only [exportedKeysFields, Bool.not_false, Bool.true_or, Bool.true_and] at he
    simp only [coverFields, Bool.false_eq_true, if_false, validTypesFields, Bool.and_eq_true] at hv
    have hm : (TVal.scalar 0).mentions h = [] := by simp [TVal.mentions]
    rw [qualifyDataFieldsPure, coverFields, if_neg Bool.false_ne_true, mentionsFields, hm, List.nil_append]
    refine (Decides.ite_panic (Decides.andThen
      ((cover_pureFields h addr changed true fs he).effect (effect_qualifyDataFields h addr _ _ _))
      (decides_pureFields h addr changed true fs he hv.2) fun r' => .pure _)).congr fun k => ?_
    simp only [LoopFieldsPure, CopyablePureFields, coverFields, requalifyFields, List.forall_mem_cons, ne_eq,
      List.cons.injEq, true_and, Bool.false_eq_true, if_false, TVal.requalify, false_implies]
    cases changed <;> cases hidden <;> simp <;> tauto
theorem decides_pureElems (h : Heap) (addr sl : Bool) : ∀ (changed : Bool) (vs : List TVal),
    exportedKeysElems vs = true → validTypesElems (coverElems vs) = true →
    Decides (mentionsElems h (coverElems vs)) (fun k => LoopElemsPure h k.qualifierOf addr sl changed vs)
      (qualifyDataElemsPure h addr sl changed vs)
  | changed, [], _, _ => by
    rw [qualifyDataElemsPure, coverElems, mentionsElems]
    exact .pure _ fun k => by simp [LoopElemsPure, CopyablePureElems, coverElems, requalifyElems]
  | changed, v :: vs, he, hv => by
    simp only [exportedKeysElems, Bool.and_eq_true] at he
    simp only [coverElems, validTypesElems, Bool.and_eq_true] at hv
    rw [qualifyDataElemsPure, coverElems, mentionsElems]
    refine (Decides.bind (D := fun k =>
      ¬ ((changed = false ∧ v.cover.requalify h k.qualifierOf ≠ v.cover ∧ sl = false) ∨
          (v.cover.requalify h k.qualifierOf ≠ v.cover ∧ PointsToInterface v)) ∧
        CopyablePureElems h k.qualifierOf addr vs ∧
        (changed = false → v.cover.requalify h k.qualifierOf = v.cover →
          requalifyElems h k.qualifierOf (coverElems vs) ≠ coverElems vs → sl = true))
      ((cover_pure h addr v he.1).effect (effect_qualifyData h addr _))
      ((cover_pure h addr v he.1).post (post_qualifyData h addr _ hv.1))
      (decides_pure h addr v he.1 hv.1)
      (fun r => Decides.ite_panic (Decides.andThen
        ((cover_pureElems h addr sl _ vs he.2).effect (effect_qualifyDataElems h addr sl _ _))
        (decides_pureElems h addr sl _ vs he.2 hv.2) fun r' => .pure _)) fun k r hr => ?_).congr fun k => ?_
    · obtain ⟨w, c⟩ := r
      obtain ⟨hr, -⟩ := hr
      dsimp only at hr ⊢
      rw [pointsToInterface_iff, LoopElemsPure]
      cases c <;> cases changed <;> cases sl <;> simp_all
    · simp only [LoopElemsPure, CopyablePureElems, coverElems, requalifyElems, ne_eq, List.cons.injEq]
      cases addr <;> cases changed <;> cases sl <;> simp <;> tauto
theorem decides_pureEntries (h : Heap) : ∀ (es : List (TVal × TVal)),
    exportedKeysEntries es = true → validTypesEntries (coverEntries es) = true →
    Decides (mentionsEntries h (coverEntries es)) (fun k => CopyablePureEntries h k.qualifierOf es)
      (qualifyDataEntriesPure h es)
  | [], _, _ => by
    rw [qualifyDataEntriesPure, coverEntries, mentionsEntries]
    exact .pure _ fun k => by simp [CopyablePureEntries]
  | (a, v) :: es, he, hv => by
    simp only [exportedKeysEntries, Bool.and_eq_true] at he
    simp only [coverEntries, validTypesEntries, Bool.and_eq_true] at hv
    rw [qualifyDataEntriesPure, coverEntries, mentionsEntries, pure_exported h false a he.1.1]
    refine (Decides.bind (D := fun k => v.CopyablePure h k.qualifierOf false ∧
        ¬ ((a.requalify h k.qualifierOf ≠ a ∧ PointsToInterface a) ∨
          (v.cover.requalify h k.qualifierOf ≠ v.cover ∧ PointsToInterface v)) ∧ CopyablePureEntries h k.qualifierOf es)
      (effect_qualifyData h false a) (post_qualifyData h false a hv.1.1)
      (decides_qualifyData h false a hv.1.1) (fun r => Decides.bind (D := fun k =>
        ¬ ((r.2 = true ∧ PointsToInterface a) ∨
          (v.cover.requalify h k.qualifierOf ≠ v.cover ∧ PointsToInterface v)) ∧ CopyablePureEntries h k.qualifierOf es)
      ((cover_pure h false v he.1.2).effect (effect_qualifyData h false _))
      ((cover_pure h false v he.1.2).post (post_qualifyData h false _ hv.1.2))
      (decides_pure h false v he.1.2 hv.1.2)
      (fun r => Decides.ite_panic (Decides.andThen
        ((cover_pureEntries h es he.2).effect (effect_qualifyDataEntries h _))
        (decides_pureEntries h es he.2 hv.2) fun r' => .pure _)) fun k r' hr => ?_)
      fun k r hr => ?_).congr fun k => ?_
    · obtain ⟨w, c⟩ := r'
      obtain ⟨w', c'⟩ := r
      obtain ⟨hr, -⟩ := hr
      dsimp only at hr ⊢
      rw [pointsToInterface_iff, pointsToInterface_iff]
      cases c <;> cases c' <;> simp_all
    · obtain ⟨w, c⟩ := r
      obtain ⟨hr, -⟩ := hr
      dsimp only at hr ⊢
      cases c <;> simp_all
    · simp only [CopyablePureEntries]
      tauto
end

end Gopoet
