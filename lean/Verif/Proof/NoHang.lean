import Verif.Proof.DataLemmas
/-!
# Qualification of trees does not hang
-/

namespace Gopoet
open Imports

/-- The conversion returns or panics. -/
def Outcome.Ends {α : Type} (x : Outcome α) : Prop := x ≠ .hang

namespace Outcome.Ends
variable {α β : Type}

theorem ok (a : α) : (Outcome.ok a).Ends := by simp [Ends]
theorem pure (a : α) : (Pure.pure a : Outcome α).Ends := by simp [Ends, Pure.pure]
theorem panic : (Outcome.panic : Outcome α).Ends := by simp [Ends]
theorem bind {x : Outcome α} {f : α → Outcome β} (hx : x.Ends) (hf : ∀ a, (f a).Ends) : (x >>= f).Ends := by
  cases x with
  | ok a => exact hf a
  | panic => exact panic
  | hang => exact absurd rfl hx
theorem ite {c : Prop} [Decidable c] {x y : Outcome α} (hx : x.Ends) (hy : y.Ends) : (if c then x else y).Ends := by
  split <;> assumption

end Outcome.Ends

open Outcome

theorem ends_basicType (k) : (basicType k).Ends := by unfold basicType; repeat' (first | exact .ok _ | exact .panic | split)

theorem ends_package (p) : (packageForGoType p).Ends := by cases p <;> first | exact .ok _ | exact .panic

theorem ends_symbolForTypesName (n) : (symbolForTypesName n).Ends := .bind (ends_package _) fun _ => .pure _

theorem ends_embeds : ∀ l, (embedsForGoType l).Ends
  | [] => .ok _
  | none :: _ => .panic
  | some n :: l => .bind (ends_symbolForTypesName n) fun _ => .bind (ends_embeds l) fun _ => .pure _

theorem ends_basicForGoType (k) : (basicForGoType k).Ends := by
  cases k <;> first | exact ends_basicType _ | exact .ok _ | exact .panic

mutual
theorem ends_goType : ∀ t, (typeNameForGoType t).Ends
  | .named n => by rw [typeNameForGoType]; exact .bind (ends_symbolForTypesName n) fun _ => .pure _
  | .basic k => by rw [typeNameForGoType]; exact ends_basicForGoType k
  | .map k e => by
    rw [typeNameForGoType]
    exact .bind (ends_goType k) fun _ => .bind (ends_goType e) fun _ => mapType_ne_hang _ _
  | .slice e => by rw [typeNameForGoType]; exact .bind (ends_goType e) fun _ => sliceType_ne_hang _
  | .array e n => by rw [typeNameForGoType]; exact .bind (ends_goType e) fun _ => arrayType_ne_hang _ _
  | .pointer e => by rw [typeNameForGoType]; exact .bind (ends_goType e) fun _ => pointerType_ne_hang _
  | .chan d e => by
    cases d <;> rw [typeNameForGoType] <;> first
      | exact .bind (ends_goType e) fun _ => channelType_ne_hang _ _
      | exact .panic
  | .signature s => by rw [typeNameForGoType]; exact .bind (ends_goSig s) fun _ => funcTypeFromSig_ne_hang _
  | .struct fs => by rw [typeNameForGoType]; exact .bind (ends_goFields fs) fun _ => .pure _
  | .interface es ms => by
    rw [typeNameForGoType]
    exact .bind (ends_embeds es) fun _ => .bind (ends_goMethods ms) fun _ => .pure _
  | .other => by rw [typeNameForGoType]; exact .panic
theorem ends_goSig : ∀ s, (signatureFromGoType s).Ends
  | .mk recv params results variadic => by
    rw [signatureFromGoType]
    exact .bind (ends_goArgs params) fun _ => .bind (ends_goArgs results) fun _ => .bind (ends_goRecv recv) fun _ =>
      .pure _
theorem ends_goRecv : ∀ r, (recvArgForGoType r).Ends
  | .none => by rw [recvArgForGoType]; exact .ok _
  | .iface => by rw [recvArgForGoType]; exact .ok _
  | .concrete n t => by rw [recvArgForGoType]; exact .bind (ends_goType t) fun _ => .pure _
theorem ends_goArgs : ∀ l, (argsTypesForGoType l).Ends
  | [] => by rw [argsTypesForGoType]; exact .ok _
  | .mk n t :: l => by
    rw [argsTypesForGoType]
    exact .bind (ends_goType t) fun _ => .bind (ends_goArgs l) fun _ => .pure _
theorem ends_goFields : ∀ l, (fieldsForGoType l).Ends
  | [] => by rw [fieldsForGoType]; exact .ok _
  | .mk n a t tag :: l => by
    rw [fieldsForGoType]
    exact .bind (ends_goType t) fun _ => .bind (ends_goFields l) fun _ => .pure _
theorem ends_goMethods : ∀ l, (methodsForGoType l).Ends
  | [] => by rw [methodsForGoType]; exact .ok _
  | .mk n s :: l => by
    rw [methodsForGoType]
    exact .bind (ends_goSig s) fun _ => .bind (ends_goMethods l) fun _ => .pure _
end

theorem ends_goObject (o : TypesObject) : (symbolForGoObject o).Ends := by
  have hk : ∀ t : TypeName, t.kind.Ends := fun t => by cases t <;> first | exact .ok _ | exact .panic
  have he : ∀ t : TypeName, t.elem.Ends := fun t => by cases t <;> first | exact .ok _ | exact .panic
  have hs : ∀ t : TypeName, t.symbol.Ends := fun t => by cases t <;> first | exact .ok _ | exact .panic
  rcases o with ⟨p, n, _ | r⟩ | ⟨p, n⟩
  · exact .bind (ends_package _) fun _ => .pure _
  · exact .bind (ends_goType _) fun t => .bind (.bind (hk _) fun _ => .ite (he _) (.ok _)) fun _ => .bind (hs _) fun _ => .pure _
  · exact .bind (ends_package _) fun _ => .pure _

theorem ends_setArg (l i a) : (setArg l i a).Ends := by unfold setArg; split <;> first | exact .ok _ | exact .panic

mutual
theorem ends_reflectType : ∀ t, (typeNameForReflectType t).Ends
  | .defined k p n => by
    rw [typeNameForReflectType]
    exact .ite (ends_basicType _) (.ite (.ok _) .panic)
  | .ptr e => by rw [typeNameForReflectType]; exact .bind (ends_reflectType e) fun _ => pointerType_ne_hang _
  | .slice e => by rw [typeNameForReflectType]; exact .bind (ends_reflectType e) fun _ => sliceType_ne_hang _
  | .array e n => by rw [typeNameForReflectType]; exact .bind (ends_reflectType e) fun _ => arrayType_ne_hang _ _
  | .chan d e => by rw [typeNameForReflectType]; exact .bind (ends_reflectType e) fun _ => channelType_ne_hang _ _
  | .map _ _ => by rw [typeNameForReflectType]; exact .panic
  | .func s => by rw [typeNameForReflectType]; exact .bind (ends_reflectSig s) fun _ => funcTypeFromSig_ne_hang _
  | .struct fs => by rw [typeNameForReflectType]; exact .bind (ends_reflectFields fs) fun _ => .pure _
  | .interface ms => by rw [typeNameForReflectType]; exact .bind (ends_reflectMethods ms) fun _ => .pure _
theorem ends_reflectSig : ∀ s, (signatureFromReflectType s).Ends
  | .mk ins outs variadic => by
    rw [signatureFromReflectType]
    exact .bind (ends_reflectArgs ins) fun _ => .bind (ends_storeResults outs _ _) fun _ => .pure _
theorem ends_reflectArgs : ∀ l, (argsForReflectType l).Ends
  | [] => by rw [argsForReflectType]; exact .ok _
  | t :: l => by
    rw [argsForReflectType]
    exact .bind (ends_reflectType t) fun _ => .bind (ends_reflectArgs l) fun _ => .pure _
theorem ends_storeResults : ∀ l args i, (storeResults args i l).Ends
  | [], _, _ => by rw [storeResults]; exact .ok _
  | t :: l, args, i => by
    rw [storeResults]
    exact .bind (ends_reflectType t) fun _ => .bind (ends_setArg _ _ _) fun _ => ends_storeResults l _ _
theorem ends_reflectFields : ∀ l, (fieldsForReflectType l).Ends
  | [] => by rw [fieldsForReflectType]; exact .ok _
  | .mk n x t tag :: l => by
    rw [fieldsForReflectType]
    exact .bind (ends_reflectType t) fun _ => .bind (ends_reflectFields l) fun _ => .pure _
theorem ends_reflectMethods : ∀ l, (methodsForReflectType l).Ends
  | [] => by rw [methodsForReflectType]; exact .ok _
  | .mk n s :: l => by
    rw [methodsForReflectType]
    exact .bind (ends_reflectSig s) fun _ => .bind (ends_reflectMethods l) fun _ => .pure _
end

/-- The computation returns or panics, in every state. -/
def IM.Ends {α : Type} (x : IM α) : Prop := ∀ i, (x i).1 ≠ .hang

namespace IM.Ends
variable {α β : Type}

theorem pure (a : α) : IM.Ends (Pure.pure a : IM α) := fun i h => by cases h
theorem panic : IM.Ends (IM.panic : IM α) := fun i h => by cases h
theorem lift {o : Outcome α} (h : o.Ends) : IM.Ends (IM.lift o) := fun _ => h
theorem bind {x : IM α} {f : α → IM β} (hx : IM.Ends x) (hf : ∀ a, IM.Ends (f a)) : IM.Ends (x >>= f) := by
  intro i
  rw [IM.bind_apply]
  have := hx i
  rcases he : x i with ⟨a | _ | _, i'⟩
  · exact hf a i'
  · simp
  · simp [he] at this
theorem ite {c : Prop} [Decidable c] {x y : IM α} (hx : IM.Ends x) (hy : IM.Ends y) :
    IM.Ends (if c then x else y) := by split <;> assumption
theorem of_returns {x : IM α} (h : Returns x) : IM.Ends x := by
  intro i
  obtain ⟨a, j, e⟩ := h i
  simp [e]

end IM.Ends

theorem ends_ensure (s : Symbol) : IM.Ends (qualify s true) := .of_returns (returns_ensureImported s)

theorem ends_qualifySymbols : ∀ l, IM.Ends (qualifySymbols true l)
  | [] => .pure _
  | s :: l => by
    rw [qualifySymbols]
    exact .bind (ends_ensure s) fun _ => .bind (ends_qualifySymbols l) fun _ => .pure _

mutual
theorem ends_qualifyType : ∀ t, IM.Ends (qualifyType true t)
  | .nil => by rw [qualifyType]; exact .panic
  | .basic k => by rw [qualifyType]; exact .pure _
  | .named s => by rw [qualifyType]; exact .bind (ends_ensure s) fun _ => .ite (.pure _) (.pure _)
  | .ptr e => by
    rw [qualifyType]
    exact .bind (ends_qualifyType e) fun _ => .ite (.bind (.lift (pointerType_ne_hang _)) fun _ => .pure _) (.pure _)
  | .slice e => by
    rw [qualifyType]
    exact .bind (ends_qualifyType e) fun _ => .ite (.bind (.lift (sliceType_ne_hang _)) fun _ => .pure _) (.pure _)
  | .array e n => by
    rw [qualifyType]
    exact .bind (ends_qualifyType e) fun _ => .ite (.bind (.lift (arrayType_ne_hang _ _)) fun _ => .pure _) (.pure _)
  | .map e k => by
    rw [qualifyType]
    exact .bind (ends_qualifyType k) fun _ => .bind (ends_qualifyType e) fun _ =>
      .ite (.bind (.lift (mapType_ne_hang _ _)) fun _ => .pure _) (.pure _)
  | .chan e d => by
    rw [qualifyType]
    exact .bind (ends_qualifyType e) fun _ => .ite (.bind (.lift (channelType_ne_hang _ _)) fun _ => .pure _) (.pure _)
  | .func s => by
    rw [qualifyType]
    exact .bind (ends_qualifySignature s) fun _ =>
      .ite (.bind (.lift (funcTypeFromSig_ne_hang _)) fun _ => .pure _) (.pure _)
  | .struct fs => by
    rw [qualifyType]
    exact .bind (ends_qualifyFields fs) fun _ => .ite (.pure _) (.pure _)
  | .interface ms es => by
    rw [qualifyType]
    exact .bind (ends_qualifySymbols es) fun _ => .bind (ends_qualifyMethods ms) fun _ => .ite (.pure _) (.pure _)
theorem ends_qualifySignature : ∀ s, IM.Ends (qualifySignature true s)
  | ⟨args, results, v⟩ => by
    rw [qualifySignature]
    exact .bind (ends_qualifyArgs args) fun _ => .bind (ends_qualifyArgs results) fun _ => .ite (.pure _) (.pure _)
theorem ends_qualifyArgs : ∀ l, IM.Ends (qualifyArgs true l)
  | [] => by rw [qualifyArgs]; exact .pure _
  | ⟨n, t⟩ :: l => by
    rw [qualifyArgs]
    exact .bind (ends_qualifyType t) fun _ => .bind (ends_qualifyArgs l) fun _ => .pure _
theorem ends_qualifyFields : ∀ l, IM.Ends (qualifyFields true l)
  | [] => by rw [qualifyFields]; exact .pure _
  | ⟨n, t, tag⟩ :: l => by
    rw [qualifyFields]
    exact .bind (ends_qualifyType t) fun _ => .bind (ends_qualifyFields l) fun _ => .pure _
theorem ends_qualifyMethods : ∀ l, IM.Ends (qualifyMethods true l)
  | [] => by rw [qualifyMethods]; exact .pure _
  | ⟨n, s⟩ :: l => by
    rw [qualifyMethods]
    exact .bind (ends_qualifySignature s) fun _ => .bind (ends_qualifyMethods l) fun _ => .pure _
end

theorem ends_converted {acc : Accepts} {o : TVal} {t : Outcome TypeName} (ht : t.Ends) :
    IM.Ends (qualifyConverted acc o t) :=
  .bind (.lift ht) fun _ => .bind (ends_qualifyType _) fun _ => .ite (.pure _) (.pure _)

theorem ends_deref {α : Type} (m : Ptr → Option α) (p : Ptr) : (deref m p).Ends := by
  unfold deref
  split
  · exact .ok _
  · exact .panic

theorem ends_parent (h : Heap) (r : SpecRef) : (r.parent h).Ends := by
  have : ∀ {α β : Type} {x : Outcome α} {f : α → Outcome β}, x.Ends → (∀ a, (f a).Ends) → (x.bind f).Ends :=
    fun hx hf => Outcome.Ends.bind hx hf
  cases r <;> exact this (ends_deref _ _) fun _ => .ok _

theorem ends_specIn (r : SpecRef) (o : TVal) (p : Package) : IM.Ends (qualifySpecIn r o p) :=
  .bind (.of_returns (returns_registerPackage p)) fun _ => .ite (.pure _) (.pure _)

mutual
/-- Qualification of trees returns or panics, in every state. -/
theorem ends_qualifyData (h : Heap) : ∀ (addr : Bool) (v : TVal), IM.Ends (qualifyData h addr v)
  | addr, .iface acc v => by
    have ih := ends_qualifyData h false v
    have hin : IM.Ends (do
        let (v', c) ← qualifyData h false v
        pure (TVal.iface acc v', c)) := .bind ih fun _ => .pure _
    cases v <;> rw [qualifyData] <;> first
      | exact hin
      | (intros; contradiction)
      | skip
    · exact ends_converted (.ok _)
    · exact ends_converted (ends_reflectType _)
    · exact ends_converted (ends_goType _)
    · exact .bind (.lift (ends_goObject _)) fun o => .of_returns (returns_object _ _ o)
    · exact .bind (.lift (ends_package _)) fun p => .bind (.of_returns (returns_registerPackage p)) fun _ =>
        .ite (.pure _) (.pure _)
  | addr, .package p => by
    rw [qualifyData]
    exact .bind (.of_returns (returns_registerPackage p)) fun _ => .ite (.pure _) (.pure _)
  | addr, .symbol s => by rw [qualifyData]; exact .bind (ends_ensure s) fun _ => .pure _
  | addr, .mref m => by rw [qualifyData]; exact .bind (ends_ensure _) fun _ => .pure _
  | addr, .signature s => by rw [qualifyData]; exact .bind (ends_qualifySignature s) fun _ => .pure _
  | addr, .spec r => by
    rw [qualifyData]
    refine .bind (.lift (ends_parent h r)) fun o => ?_
    cases o with
    | none => exact .pure _
    | some f => exact .bind (.lift (ends_deref _ _)) fun _ => ends_specIn _ _ _
  | addr, .specCopy r n => by rw [qualifyData]; exact ends_specIn _ _ _
  | addr, .embed e => by rw [qualifyData]; exact .bind (.bind (ends_ensure _) fun _ => .pure _) fun _ => .pure _
  | addr, .method m => by
    rw [qualifyData]
    exact .bind (.bind (ends_qualifySignature _) fun _ => .pure _) fun _ => .pure _
  | addr, .ptr v => by rw [qualifyData]; exact .bind (ends_qualifyData h true v) fun _ => .pure _
  | addr, .struct fs => by rw [qualifyData]; exact .bind (ends_qualifyDataFields h addr _ _ fs) fun _ => .pure _
  | addr, .array vs => by rw [qualifyData]; exact .bind (ends_qualifyDataElems h addr _ _ vs) fun _ => .pure _
  | addr, .slice vs => by rw [qualifyData]; exact .bind (ends_qualifyDataElems h true _ _ vs) fun _ => .pure _
  | addr, .map es => by
    rw [qualifyData]
    exact .bind (ends_qualifyDataEntries h es) fun _ => .ite (.pure _) (.pure _)
  | addr, .scalar _ | addr, .imports | addr, .typeName _ | addr, .reflectType _ | addr, .goType _
  | addr, .goObject _ | addr, .goPackage _ => by
    rw [qualifyData]
    · exact .pure _
    all_goals (intros; contradiction)
/-- see `ends_qualifyData` -/
theorem ends_qualifyDataFields (h : Heap) (addr : Bool) : ∀ (changed hidden : Bool) (fs : List (Bool × TVal)),
    IM.Ends (qualifyDataFields h addr changed hidden fs)
  | _, _, [] => by rw [qualifyDataFields]; exact .pure _
  | changed, hidden, (e, v) :: fs => by
    rw [qualifyDataFields]
    exact .ite .panic (.bind (ends_qualifyData h addr v) fun x => .ite .panic
      (.bind (ends_qualifyDataFields h addr _ _ fs) fun _ => .pure _))
/-- see `ends_qualifyData` -/
theorem ends_qualifyDataElems (h : Heap) (addr sl : Bool) : ∀ (changed : Bool) (vs : List TVal),
    IM.Ends (qualifyDataElems h addr sl changed vs)
  | _, [] => by rw [qualifyDataElems]; exact .pure _
  | changed, v :: vs => by
    rw [qualifyDataElems]
    exact .bind (ends_qualifyData h addr v) fun x => .ite .panic
      (.bind (ends_qualifyDataElems h addr sl _ vs) fun _ => .pure _)
/-- see `ends_qualifyData` -/
theorem ends_qualifyDataEntries (h : Heap) : ∀ (es : List (TVal × TVal)), IM.Ends (qualifyDataEntries h es)
  | [] => by rw [qualifyDataEntries]; exact .pure _
  | (k, v) :: es => by
    rw [qualifyDataEntries]
    exact .bind (ends_qualifyData h false k) fun _ => .bind (ends_qualifyData h false v) fun _ => .ite .panic
      (.bind (ends_qualifyDataEntries h es) fun _ => .pure _)
end

theorem ends_qualifyTemplateData (h : Heap) (v : TVal) : IM.Ends (qualifyTemplateData h v) := by
  refine .bind (ends_qualifyData h true _) ?_
  rintro ⟨r, c⟩
  cases r <;> exact .pure _

end Gopoet
