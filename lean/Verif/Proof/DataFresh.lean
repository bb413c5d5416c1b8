import Verif.Proof.DataFrame
/-!
# Types and pointers that qualification has changed are new

What `qualifyType` returns is the type that it was given, or is at a new address. The same holds for
`qualifyTemplateData` and pointers. So changed keys of maps do not equal others by accident.
-/

namespace Gopoet
open MM

/-- Go's `==` on types compares an address from `b` on. -/
def MType.New (b : Nat) : MType → Prop
  | .nil => False
  | .basic _ => False
  | .named p => b ≤ p
  | .ptr t => t.New b
  | .slice t => t.New b
  | .array t _ => t.New b
  | .map t k => t.New b ∨ k.New b
  | .chan t _ => t.New b
  | .func p => b ≤ p
  | .struct p => b ≤ p
  | .interface p => b ≤ p

theorem new_qualifySignatureM {b : Nat} {q : MType → MM MType} (hq : ∀ v, Framed b (q v) fun _ => True) (p : Nat) :
    Framed b (qualifySignatureM q p) fun r => r = p ∨ b ≤ r :=
  (framed_loadSig b p).bind fun s _ => (framed_qualifyArgsM hq s.args).bind fun _ _ =>
    (framed_loadSig b p).bind fun s _ => (framed_qualifyArgsM hq s.results).bind fun _ _ =>
      (framed_loadSig b p).bind fun _ _ =>
        .ite ((framed_alloc b _).weaken fun _ h => .inr h) (.pure (.inl rfl))

theorem new_funcTypeFromSigM (b p : Nat) : Framed b (funcTypeFromSigM p) fun t => t = .func p := by
  refine (framed_loadSig b p).bind fun s _ => (framed_loadSlice b s.args).bind fun _ _ =>
    (framed_loadSlice b s.results).bind fun _ _ => .ite .panic (.ite .panic (.ite ?_ (.pure rfl)))
  split
  · exact .pure rfl
  · exact .panic

theorem new_qualifyTypeM (b : Nat) (r : Bool) : ∀ (fuel : Nat) (v : MType),
    Framed b (qualifyTypeM r fuel v) fun t => t = v ∨ t.New b
  | 0, _ => .hang
  | fuel + 1, v => by
    have hq := framed_qualifyTypeM b r fuel
    have ih := new_qualifyTypeM b r fuel
    cases v with
    | nil => exact .panic
    | basic k => exact .pure (.inl rfl)
    | named p =>
      refine (framed_load b p).bind fun c _ => ?_
      split
      · exact (framed_onImports b _).bind fun _ _ =>
          .ite ((framed_alloc b _).bind fun _ h => .pure (.inr h)) (.pure (.inl rfl))
      · exact .panic
    | ptr e | slice e | array e n | chan e d =>
      refine (ih e).bind fun t ht => ?_
      split
      · rename_i hne
        exact .ite .panic (.pure (.inr (ht.resolve_left hne)))
      · exact .pure (.inl rfl)
    | map e k =>
      refine (ih k).bind fun k' hk => (ih e).bind fun e' he => ?_
      split
      · rename_i hne
        exact .ite .panic (.pure (.inr (hne.imp he.resolve_left hk.resolve_left)))
      · exact .pure (.inl rfl)
    | func p =>
      refine (new_qualifySignatureM hq p).bind fun np hnp => ?_
      split
      · rename_i hne
        exact (new_funcTypeFromSigM b np).weaken fun t ht => .inr (by rw [ht]; exact hnp.resolve_left hne)
      · exact .pure (.inl rfl)
    | struct p =>
      refine (framed_load b p).bind fun c _ => ?_
      split
      · exact (framed_copySlice b _).bind fun fs _ => (framed_qualifyFieldsM hq fs).bind fun _ _ =>
          .ite ((framed_alloc b _).bind fun _ h => .pure (.inr h)) (.pure (.inl rfl))
      · exact .panic
    | interface p =>
      refine (framed_load b p).bind fun c _ => ?_
      split
      · exact (framed_copySlice b _).bind fun es _ => (framed_qualifySymbolsM b r es).bind fun _ _ =>
          (framed_copySlice b _).bind fun ms _ => (framed_qualifyMethodsM hq ms).bind fun _ _ =>
          .ite ((framed_alloc b _).bind fun _ h => .pure (.inr h)) (.pure (.inl rfl))
      · exact .panic

/-- Pointers and types, possibly in an interface. -/
def DVal.byIdentity : DVal → Bool
  | .iface _ v => v.byIdentity
  | .ptr _ _ | .typeName _ | .reflectType _ _ | .goType _ _ | .goObject _ _ | .goPackage _ _ => true
  | _ => false

/-- A pointer or type, possibly in an interface, that is new. Other values do not matter. -/
def DVal.New (b : Nat) : DVal → Prop
  | .iface _ v => v.New b
  | .ptr a _ => b ≤ a
  | .typeName t => t.New b
  | .reflectType _ _ | .goType _ _ | .goObject _ _ | .goPackage _ _ => False
  | _ => True

/-- If a pointer or type has changed, it is new; so is the address of what has changed. -/
structure NewRes (b : Nat) (d : DVal) (r : DRes) : Prop where
  val : d.byIdentity = true → r.changed = true → r.val.New b
  addr : ∀ a, r.addr = some a → b ≤ a

theorem NewRes.unchanged {d : DVal} (b : Nat) (v : DVal) : NewRes b d (unchanged v) :=
  ⟨fun _ h => by simp [Gopoet.unchanged] at h, fun _ h => by simp [Gopoet.unchanged] at h⟩

theorem NewRes.replaced {d : DVal} {b : Nat} {v : DVal} (h : v.New b) : NewRes b d (replaced v) :=
  ⟨fun _ _ => h, fun _ h => by simp [Gopoet.replaced] at h⟩

theorem new_replacedAt {d : DVal} {b : Nat} {v : DVal} (h : v.New b) : Framed b (replacedAt v) (NewRes b d) :=
  (framed_alloc b _).bind fun _ ha => .pure ⟨fun _ _ => h, fun _ e => by cases e; exact ha⟩

theorem new_partsLoop {b : Nat} {shape : Shape} {addr : Bool} {get : Nat → MM DVal} {q : DVal → MM DRes}
    (hg : ∀ k, Framed b (get k) fun _ => True) (hq : ∀ v, Framed b (q v) fun _ => True)
    (total : Nat) : ∀ n idx new, (∀ a, new = some a → b ≤ a) →
      Framed b (partsLoop shape addr get q total n idx new) fun o => ∀ a, o = some a → b ≤ a
  | 0, _, _, h => .pure h
  | n + 1, idx, new, hn => by
    refine .ite .panic ((hg idx).bind fun v _ => (hq v).bind fun r _ => ?_)
    have next : ∀ a, b ≤ a → Framed b (partsLoop shape addr get q total n (idx + 1) (some a)) fun o =>
        ∀ a, o = some a → b ≤ a :=
      fun a ha => new_partsLoop hg hq total n (idx + 1) (some a) fun a' h' => by
        cases h'
        exact ha
    cases new with
    | some a => exact (framed_setRes (hn a rfl) _ _ _).bind fun _ _ => next a (hn a rfl)
    | none =>
      exact .ite (.ite ((framed_alloc b _).bind fun a ha => (framed_copyParts hg ha idx 0).bind fun _ _ =>
        (framed_setRes ha _ _ _).bind fun _ _ => next a ha) .panic)
        (new_partsLoop hg hq total n (idx + 1) none fun _ h => by cases h)

theorem new_qualifyConvertedM (b fuel : Nat) (acc : Accepts) (orig : DVal) (t : MType) {d : DVal} :
    Framed b (qualifyConvertedM fuel acc orig t) (NewRes b d) := by
  refine (new_qualifyTypeM b true fuel t).bind fun t' ht => ?_
  split
  · rename_i hne
    exact .pure (.replaced (ht.resolve_left hne.1))
  · exact .pure (.unchanged b _)

theorem new_qualifyObjectM (b : Nat) (acc : Accepts) (orig : DVal) {d : DVal} :
    ∀ o, Framed b (qualifyObjectM acc orig o) (NewRes b d)
  | .symbol _ => (framed_onImports b _).bind fun _ _ => .ite (.pure (.replaced trivial)) (.pure (.unchanged b _))
  | .method _ => (framed_onImports b _).bind fun _ _ =>
      .ite ((framed_alloc b _).bind fun _ h => .pure (.replaced h)) (.pure (.unchanged b _))

theorem new_qualifySpecInM (b : Nat) (r : SpecRef) (orig : DVal) (pkg : Package) {d : DVal} :
    Framed b (qualifySpecInM r orig pkg) (NewRes b d) :=
  (framed_onImports b _).bind fun _ _ => .ite (new_replacedAt trivial) (.pure (.unchanged b _))

theorem new_qualifyD (b : Nat) (h : Heap) : ∀ (fuel : Nat) (addr : Bool) (d : DVal),
    Framed b (qualifyD h fuel addr d) (NewRes b d)
  | 0, _, _ => .hang
  | fuel + 1, addr, d => by
    have hf := framed_qualifyD b h fuel
    have hq := new_qualifyD b h fuel
    cases d with
    | iface acc v =>
      have hin : ∀ v, Framed b (do
          let r ← qualifyD h fuel false v
          if r.changed then pure { r with val := .iface acc r.val, retyped := false }
          else pure (unchanged (.iface acc v))) (NewRes b (.iface acc v)) :=
        fun v => (hq false v).bind fun r hr => .ite (.pure ⟨hr.val, hr.addr⟩) (.pure (.unchanged b _))
      cases v with
      | typeName t => exact new_qualifyConvertedM b _ _ _ _
      | reflectType _ t =>
        exact (framed_onImports b _).bind fun _ _ => (framed_buildType b _).bind fun _ _ =>
          new_qualifyConvertedM b _ _ _ _
      | goType _ t =>
        exact (framed_onImports b _).bind fun _ _ => (framed_buildType b _).bind fun _ _ =>
          new_qualifyConvertedM b _ _ _ _
      | goObject _ o => exact (framed_onImports b _).bind fun _ _ => new_qualifyObjectM b _ _ _
      | goPackage _ g =>
        exact (framed_onImports b _).bind fun _ _ => (framed_onImports b _).bind fun _ _ =>
          .ite (.pure (.replaced trivial)) (.pure (.unchanged b _))
      | _ => exact hin _
    | package p => exact (framed_onImports b _).bind fun _ _ => .ite (new_replacedAt trivial) (.pure (.unchanged b _))
    | symbol p => exact (framed_onImports b _).bind fun _ _ => .ite (new_replacedAt trivial) (.pure (.unchanged b _))
    | mref p => exact (framed_onImports b _).bind fun _ _ => .ite (new_replacedAt trivial) (.pure (.unchanged b _))
    | signature s =>
      exact (framed_alloc b _).bind fun p hp =>
        (new_qualifySignatureM (framed_qualifyTypeM b true fuel) p).bind fun p' hp' =>
          .ite ((framed_loadSig b _).bind fun _ _ => .pure ⟨fun _ _ => trivial, fun a e => by
            cases e
            rcases hp' with rfl | h
            · exact hp
            · exact h⟩) (.pure (.unchanged b _))
    | spec r =>
      refine (framed_onImports b _).bind fun o _ => ?_
      cases o with
      | none => exact .pure (.unchanged b _)
      | some f => exact (framed_onImports b _).bind fun _ _ => new_qualifySpecInM b _ _ _
    | specCopy r n => exact new_qualifySpecInM b _ _ _
    | embed e =>
      exact (framed_alloc b _).bind fun p hp => (framed_onImports b _).bind fun _ _ =>
        (framed_store hp _).bind fun _ _ => .ite (.pure ⟨fun _ _ => trivial, fun a e => by cases e; exact hp⟩)
          (.pure (.unchanged b _))
    | method m =>
      exact (framed_alloc b _).bind fun p _ => (framed_alloc b _).bind fun p' hp' =>
        (framed_qualifySignatureM (framed_qualifyTypeM b true fuel) p).bind fun _ _ =>
          .ite ((framed_loadSig b _).bind fun _ _ => (framed_store hp' _).bind fun _ _ =>
            .pure ⟨fun _ _ => trivial, fun a e => by cases e; exact hp'⟩) (.pure (.unchanged b _))
    | ptr a path =>
      refine (framed_loadData b _ _).bind fun v _ => (hq true v).bind fun r hr => .ite ?_ (.pure (.unchanged b _))
      split
      · rename_i c hc
        exact .pure ⟨fun _ _ => hr.addr c hc, fun _ e => by cases e⟩
      · exact (framed_alloc b _).bind fun _ hp => (framed_store hp _).bind fun _ _ =>
          .pure ⟨fun _ _ => hp, fun _ e => by cases e⟩
    | struct fs =>
      refine (new_partsLoop (framed_partOf b _) (hf addr) _ _ _ none fun _ h => by cases h).bind fun o ho => ?_
      split
      · exact (framed_loadData b _ _).bind fun _ _ => .pure ⟨fun h => (by cases h), ho⟩
      · exact .pure (.unchanged b _)
    | array vs =>
      refine (new_partsLoop (framed_partOf b _) (hf addr) _ _ _ none fun _ h => by cases h).bind fun o ho => ?_
      split
      · exact (framed_loadData b _ _).bind fun _ _ => .pure ⟨fun h => (by cases h), ho⟩
      · exact .pure (.unchanged b _)
    | slice s =>
      refine (framed_partsLoop (framed_loadDataElem b s) (hf true) _ _ _ none fun _ h => by cases h).bind fun o _ => ?_
      split
      · exact .pure (.replaced trivial)
      · exact .pure (.unchanged b _)
    | map a =>
      refine (framed_load b a).bind fun c _ => ?_
      split
      · refine (framed_entriesLoop (hf false) _ _ none fun _ h => by cases h).bind fun o _ => ?_
        split
        · exact .pure (.replaced trivial)
        · exact .pure (.unchanged b _)
      · exact .panic
    | _ => exact .pure (.unchanged b _)

end Gopoet
