import Verif.Model.DataMemory
import Verif.Proof.MemoryFrame
/-!
# Qualification of template data does not store to existing memory
-/

namespace Gopoet
open MM

theorem framed_loadData (b a : Nat) (path : List Nat) : Framed b (loadData a path) fun _ => True := by
  refine (framed_load b a).bind fun c _ => ?_
  split
  · exact .pure trivial
  · exact .panic

theorem framed_loadDataElem (b : Nat) (s : Slice) (idx : Nat) : Framed b (loadDataElem s idx) fun _ => True := by
  refine (framed_loadElem b s idx).bind fun c _ => ?_
  split
  · exact .pure trivial
  · exact .panic

theorem framed_partOf (b : Nat) (l : List DVal) (idx : Nat) : Framed b (partOf l idx) fun _ => True := by
  unfold partOf
  split
  · exact .pure trivial
  · exact .panic

mutual
theorem framed_buildType (b : Nat) : ∀ t, Framed b (buildType t) fun _ => True
  | .nil => by rw [buildType]; exact .pure trivial
  | .basic k => by rw [buildType]; exact .pure trivial
  | .named s => by rw [buildType]; exact (framed_alloc b _).bind fun _ _ => .pure trivial
  | .ptr t => by rw [buildType]; exact (framed_buildType b t).bind fun _ _ => .pure trivial
  | .slice t => by rw [buildType]; exact (framed_buildType b t).bind fun _ _ => .pure trivial
  | .array t n => by rw [buildType]; exact (framed_buildType b t).bind fun _ _ => .pure trivial
  | .map t k => by
    rw [buildType]
    exact (framed_buildType b t).bind fun _ _ => (framed_buildType b k).bind fun _ _ => .pure trivial
  | .chan t d => by rw [buildType]; exact (framed_buildType b t).bind fun _ _ => .pure trivial
  | .func s => by
    rw [buildType]
    exact (framed_buildSig b s).bind fun _ _ => (framed_alloc b _).bind fun _ _ => .pure trivial
  | .struct fields => by
    rw [buildType]
    exact (framed_buildFields b fields).bind fun _ _ => (framed_alloc b _).bind fun _ _ =>
      (framed_alloc b _).bind fun _ _ => .pure trivial
  | .interface methods embeds => by
    rw [buildType]
    exact (framed_buildMethods b methods).bind fun _ _ => (framed_alloc b _).bind fun _ _ =>
      (framed_alloc b _).bind fun _ _ => (framed_alloc b _).bind fun _ _ => .pure trivial
theorem framed_buildSig (b : Nat) : ∀ t, Framed b (buildSig t) fun _ => True
  | ⟨args, results, v⟩ => by
    rw [buildSig]
    exact (framed_buildArgs b args).bind fun _ _ => (framed_alloc b _).bind fun _ _ =>
      (framed_buildArgs b results).bind fun _ _ => (framed_alloc b _).bind fun _ _ => .pure trivial
theorem framed_buildArgs (b : Nat) : ∀ t, Framed b (buildArgs t) fun _ => True
  | [] => by rw [buildArgs]; exact .pure trivial
  | ⟨n, t⟩ :: l => by
    rw [buildArgs]
    exact (framed_buildType b t).bind fun _ _ => (framed_buildArgs b l).bind fun _ _ => .pure trivial
theorem framed_buildFields (b : Nat) : ∀ t, Framed b (buildFields t) fun _ => True
  | [] => by rw [buildFields]; exact .pure trivial
  | ⟨n, t, tag⟩ :: l => by
    rw [buildFields]
    exact (framed_buildType b t).bind fun _ _ => (framed_buildFields b l).bind fun _ _ => .pure trivial
theorem framed_buildMethods (b : Nat) : ∀ t, Framed b (buildMethods t) fun _ => True
  | [] => by rw [buildMethods]; exact .pure trivial
  | ⟨n, s⟩ :: l => by
    rw [buildMethods]
    exact (framed_buildSig b s).bind fun _ _ => (framed_buildMethods b l).bind fun _ _ => .pure trivial
end

theorem framed_replacedAt (b : Nat) (v : DVal) : Framed b (replacedAt v) fun _ => True :=
  (framed_alloc b _).bind fun _ _ => .pure trivial

theorem framed_setPart {b a : Nat} (h : b ≤ a) (shape : Shape) (idx : Nat) (v : DVal) :
    Framed b (setPart shape a idx v) fun _ => True := by
  refine .ite .panic ((framed_load b a).bind fun c _ => ?_)
  split
  · exact .ite (framed_store h _) .panic
  · exact .panic

theorem framed_setRes {b a : Nat} (h : b ≤ a) (shape : Shape) (idx : Nat) (r : DRes) :
    Framed b (setRes shape a idx r) fun _ => True := .ite .panic (framed_setPart h _ _ _)

section
variable {b : Nat} {shape : Shape} {addr : Bool} {get : Nat → MM DVal} {q : DVal → MM DRes}

theorem framed_copyParts {a : Nat} (hg : ∀ k, Framed b (get k) fun _ => True) (h : b ≤ a) :
    ∀ n idx, Framed b (copyParts shape get a n idx) fun _ => True
  | 0, _ => .pure trivial
  | n + 1, idx => (hg idx).bind fun v _ => (framed_setPart h shape idx v).bind fun _ _ =>
      framed_copyParts hg h n (idx + 1)

theorem framed_partsLoop (hg : ∀ k, Framed b (get k) fun _ => True) (hq : ∀ v, Framed b (q v) fun _ => True)
    (total : Nat) : ∀ n idx new, (∀ a, new = some a → b ≤ a) →
      Framed b (partsLoop shape addr get q total n idx new) fun _ => True
  | 0, _, _, _ => .pure trivial
  | n + 1, idx, new, hn => by
    refine .ite .panic ((hg idx).bind fun v _ => (hq v).bind fun r _ => ?_)
    have next : ∀ a, b ≤ a → Framed b (partsLoop shape addr get q total n (idx + 1) (some a)) fun _ => True :=
      fun a ha => framed_partsLoop hg hq total n (idx + 1) (some a) fun a' h' => by
        cases h'
        exact ha
    cases new with
    | some a => exact (framed_setRes (hn a rfl) _ _ _).bind fun _ _ => next a (hn a rfl)
    | none =>
      exact .ite (.ite ((framed_alloc b _).bind fun a ha => (framed_copyParts hg ha idx 0).bind fun _ _ =>
        (framed_setRes ha _ _ _).bind fun _ _ => next a ha) .panic)
        (framed_partsLoop hg hq total n (idx + 1) none fun _ h => by cases h)

theorem framed_setMapIndexM {a : Nat} (h : b ≤ a) (k v : DVal) : Framed b (setMapIndexM a k v) fun _ => True := by
  refine (framed_load b a).bind fun c _ => ?_
  split
  · exact framed_store h _
  · exact .panic

theorem framed_setMapRes {a : Nat} (h : b ≤ a) (k v : DRes) : Framed b (setMapRes a k v) fun _ => True :=
  .ite .panic (framed_setMapIndexM h _ _)

theorem framed_copyEntries {a : Nat} (h : b ≤ a) : ∀ es, Framed b (copyEntries a es) fun _ => True
  | [] => .pure trivial
  | (k, v) :: es => (framed_setMapIndexM h k v).bind fun _ _ => framed_copyEntries h es

theorem framed_entriesLoop (hq : ∀ v, Framed b (q v) fun _ => True) :
    ∀ es seen new, (∀ a, new = some a → b ≤ a) → Framed b (entriesLoop q es seen new) fun _ => True
  | [], _, _, _ => .pure trivial
  | (k, v) :: es, seen, new, hn => by
    refine (hq k).bind fun rk _ => (hq v).bind fun rv _ => ?_
    have next : ∀ a seen, b ≤ a → Framed b (entriesLoop q es seen (some a)) fun _ => True :=
      fun a seen ha => framed_entriesLoop hq es seen (some a) fun a' h' => by
        cases h'
        exact ha
    cases new with
    | some a => exact (framed_setMapRes (hn a rfl) _ _).bind fun _ _ => next a seen (hn a rfl)
    | none =>
      exact .ite ((framed_alloc b _).bind fun a ha => (framed_copyEntries ha seen).bind fun _ _ =>
        (framed_setMapRes ha _ _).bind fun _ _ => next a [] ha)
        (framed_entriesLoop hq es _ none fun _ h => by cases h)

end

theorem framed_qualifyConvertedM (b fuel : Nat) (acc : Accepts) (orig : DVal) (t : MType) :
    Framed b (qualifyConvertedM fuel acc orig t) fun _ => True :=
  (framed_qualifyTypeM b true fuel t).bind fun _ _ => .ite (.pure trivial) (.pure trivial)

theorem framed_qualifyObjectM (b : Nat) (acc : Accepts) (orig : DVal) :
    ∀ o, Framed b (qualifyObjectM acc orig o) fun _ => True
  | .symbol _ => (framed_onImports b _).bind fun _ _ => .ite (.pure trivial) (.pure trivial)
  | .method _ => (framed_onImports b _).bind fun _ _ =>
      .ite ((framed_alloc b _).bind fun _ _ => .pure trivial) (.pure trivial)

theorem framed_qualifySpecInM (b : Nat) (r : SpecRef) (orig : DVal) (pkg : Package) :
    Framed b (qualifySpecInM r orig pkg) fun _ => True :=
  (framed_onImports b _).bind fun _ _ => .ite (framed_replacedAt b _) (.pure trivial)

theorem framed_qualifyD (b : Nat) (h : Heap) : ∀ (fuel : Nat) (addr : Bool) (d : DVal),
    Framed b (qualifyD h fuel addr d) fun _ => True
  | 0, _, _ => .hang
  | fuel + 1, addr, d => by
    have hq := framed_qualifyD b h fuel
    have hparts : ∀ shape (vs : List DVal), Framed b (do
        match ← partsLoop shape addr (partOf vs) (qualifyD h fuel addr) vs.length vs.length 0 none with
        | some a => do
          let v ← loadData a []
          pure (⟨v, some a, true, false⟩ : DRes)
        | none => pure (unchanged d)) fun _ => True := by
      intro shape vs
      refine (framed_partsLoop (framed_partOf b vs) (hq addr) _ _ _ none fun _ h => by cases h).bind fun o _ => ?_
      split
      · exact (framed_loadData b _ _).bind fun _ _ => .pure trivial
      · exact .pure trivial
    cases d with
    | iface acc v =>
      have hin : ∀ v, Framed b (do
          let r ← qualifyD h fuel false v
          if r.changed then pure { r with val := .iface acc r.val, retyped := false }
          else pure (unchanged (.iface acc v))) fun _ => True :=
        fun v => (hq false v).bind fun _ _ => .ite (.pure trivial) (.pure trivial)
      cases v with
      | typeName t => exact framed_qualifyConvertedM b _ _ _ _
      | reflectType _ t =>
        exact (framed_onImports b _).bind fun _ _ => (framed_buildType b _).bind fun _ _ =>
          framed_qualifyConvertedM b _ _ _ _
      | goType _ t =>
        exact (framed_onImports b _).bind fun _ _ => (framed_buildType b _).bind fun _ _ =>
          framed_qualifyConvertedM b _ _ _ _
      | goObject _ o => exact (framed_onImports b _).bind fun _ _ => framed_qualifyObjectM b _ _ _
      | goPackage _ g =>
        exact (framed_onImports b _).bind fun _ _ => (framed_onImports b _).bind fun _ _ =>
          .ite (.pure trivial) (.pure trivial)
      | _ => exact hin _
    | package p => exact (framed_onImports b _).bind fun _ _ => .ite (framed_replacedAt b _) (.pure trivial)
    | symbol p => exact (framed_onImports b _).bind fun _ _ => .ite (framed_replacedAt b _) (.pure trivial)
    | mref p => exact (framed_onImports b _).bind fun _ _ => .ite (framed_replacedAt b _) (.pure trivial)
    | signature s =>
      exact (framed_alloc b _).bind fun p _ =>
        (framed_qualifySignatureM (framed_qualifyTypeM b true fuel) p).bind fun _ _ =>
          .ite ((framed_loadSig b _).bind fun _ _ => .pure trivial) (.pure trivial)
    | spec r =>
      refine (framed_onImports b _).bind fun o _ => ?_
      cases o with
      | none => exact .pure trivial
      | some f => exact (framed_onImports b _).bind fun _ _ => framed_qualifySpecInM b _ _ _
    | specCopy r n => exact framed_qualifySpecInM b _ _ _
    | embed e =>
      exact (framed_alloc b _).bind fun p hp => (framed_onImports b _).bind fun _ _ =>
        (framed_store hp _).bind fun _ _ => .ite (.pure trivial) (.pure trivial)
    | method m =>
      exact (framed_alloc b _).bind fun p _ => (framed_alloc b _).bind fun p' hp' =>
        (framed_qualifySignatureM (framed_qualifyTypeM b true fuel) p).bind fun _ _ =>
          .ite ((framed_loadSig b _).bind fun _ _ => (framed_store hp' _).bind fun _ _ => .pure trivial)
            (.pure trivial)
    | ptr a path =>
      refine (framed_loadData b _ _).bind fun v _ => (hq true v).bind fun r _ => .ite ?_ (.pure trivial)
      split
      · exact .pure trivial
      · exact (framed_alloc b _).bind fun _ hp => (framed_store hp _).bind fun _ _ => .pure trivial
    | struct fs => exact hparts _ _
    | array vs => exact hparts _ _
    | slice s =>
      refine (framed_partsLoop (framed_loadDataElem b s) (hq true) _ _ _ none fun _ h => by cases h).bind fun o _ => ?_
      split <;> exact .pure trivial
    | map a =>
      refine (framed_load b a).bind fun c _ => ?_
      split
      · refine (framed_entriesLoop (hq false) _ _ none fun _ h => by cases h).bind fun o _ => ?_
        split <;> exact .pure trivial
      · exact .panic
    | _ => exact .pure trivial

theorem framed_qualifyTemplateDataM (b : Nat) (h : Heap) (fuel : Nat) (d : DVal) :
    Framed b (qualifyTemplateDataM h fuel d) fun _ => True :=
  (framed_alloc b _).bind fun _ _ => (framed_loadDataElem b _ _).bind fun _ _ =>
    (framed_qualifyD b h fuel true _).bind fun _ _ => .pure trivial

end Gopoet
