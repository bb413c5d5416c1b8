import Verif.Proof.LegibleText
import Verif.Proof.Synced
import Verif.Proof.Writable
/-! For C74: qualification keeps names source text if the names of the imports are in the end. -/

namespace Gopoet
open Imports

/-- The names in the table of imports are source text. -/
def NamesLegible (J : Imports) : Prop := ∀ p d, J.importsByPath.get p = some d → SourceText d.packageName

/-- `x` only adds imports, and the result is as said if the imports in the end are among those of `J`. -/
structure IM.Fine {α : Type} (J : Imports) (R : α → Prop) (x : IM α) : Prop where
  ext : ∀ i, Ext i (x i).2
  yields : ∀ i a i', x i = (.ok a, i') → Ext i' J → R a

namespace IM.Fine
variable {α β : Type} {J : Imports} {R : α → Prop} {S : β → Prop}

theorem pure {a : α} (h : R a) : IM.Fine J R (pure a : IM α) :=
  ⟨fun _ => .refl _, fun _ _ _ he _ => by cases he; exact h⟩
theorem panic : IM.Fine J R (IM.panic : IM α) := ⟨fun _ => .refl _, fun _ _ _ he _ => by cases he⟩
theorem lift {o : Outcome α} (h : Outcome.Is R o) : IM.Fine J R (IM.lift o) :=
  ⟨fun _ => .refl _, fun _ a _ he _ => h a (by simp only [IM.lift, Prod.mk.injEq] at he; exact he.1)⟩

theorem ite {c : Prop} [Decidable c] {x y : IM α} (hx : IM.Fine J R x) (hy : IM.Fine J R y) :
    IM.Fine J R (if c then x else y) := by split <;> assumption

theorem mono {Q : α → Prop} {x : IM α} (hx : IM.Fine J Q x) (h : ∀ a, Q a → R a) : IM.Fine J R x :=
  ⟨hx.ext, fun i a i' he hj => h a (hx.yields i a i' he hj)⟩

theorem bind {x : IM α} {f : α → IM β} (hx : IM.Fine J R x) (hf : ∀ a, IM.Fine J (fun b => R a → S b) (f a)) :
    IM.Fine J S (x >>= f) := by
  refine ⟨fun i => ?_, fun i b k he hj => ?_⟩
  · refine (hx.ext i).trans ?_
    simp only [IM.bind_apply]
    rcases he : x i with ⟨a | _ | _, i'⟩
    · exact (hf a).ext i'
    · exact .refl _
    · exact .refl _
  · simp only [IM.bind_apply] at he
    rcases h1 : x i with ⟨a | _ | _, i'⟩ <;> rw [h1] at he
    · have h2 := (hf a).ext i'
      dsimp only at he
      rw [he] at h2
      exact (hf a).yields _ _ _ he hj (hx.yields _ _ _ h1 (h2.trans hj))
    · cases he
    · cases he

end IM.Fine

theorem Outcome.Is.when {α} {P : Prop} {R : α → Prop} {o : Outcome α} (h : P → Outcome.Is R o) :
    Outcome.Is (fun a => P → R a) o := fun a ha hp => h hp a ha

variable {J : Imports}

theorem legibly_prefixForPackage (hJ : NamesLegible J) (p n : GoString) :
    IM.Fine J (fun q => SourceText q) (prefixForPackage p n true) := by
  refine ⟨(synced_prefixForPackage p n).ext, fun i a i' he hj => ?_⟩
  by_cases ho : p = i.pkgPath
  · rw [prefixForPackage_own ho] at he
    cases he
    exact .nil
  · cases hg : i.importsByPath.get p with
    | some d =>
      rw [prefixForPackage_known ho hg] at he
      cases he
      exact (hJ p d (hj.keeps _ _ hg)).append (.ascii (by decide))
    | none =>
      obtain ⟨q, -, hq⟩ := prefixForPackage_new (n := n) ho hg
      rw [hq] at he
      cases he
      have := hJ p _ (hj.keeps p _ (by simp only [Imports.add, GoMap.get_set, if_true]; rfl))
      exact this.append (.ascii (by decide))

theorem legibly_registerPackage (hJ : NamesLegible J) (p : Package) :
    IM.Fine J (fun q => SourceText q) (registerPackage p) :=
  .bind (legibly_prefixForPackage hJ _ _) fun _ => .pure sourceText_trimDot

theorem legibly_qualify (hJ : NamesLegible J) (s : Symbol) : IM.Fine J (fun q => s.Legible → q.Legible) (qualify s true) := by
  unfold qualify
  exact .ite (.pure id) (.bind (legibly_prefixForPackage hJ _ _) fun _ => .ite
    (.pure fun h1 h2 => ⟨sourceText_trimDot h1, h2.2⟩) (.pure fun _ => id))

theorem legibly_qualifySymbols (hJ : NamesLegible J) : ∀ l : List Symbol,
    IM.Fine J (fun r : List Symbol × Bool => (∀ s ∈ l, s.Legible) → ∀ s ∈ r.1, s.Legible) (qualifySymbols true l)
  | [] => .pure (by simp)
  | s :: l => by
    rw [qualifySymbols]
    refine .bind (legibly_qualify hJ s) fun _ => .bind (legibly_qualifySymbols hJ l) fun _ => .pure fun h1 h2 h3 x hx => ?_
    rcases List.mem_cons.1 hx with rfl | hx
    · exact h2 (h3 s (by simp))
    · exact h1 (fun s hs => h3 s (by simp [hs])) x hx

mutual
theorem legibly_qualifyType (hJ : NamesLegible J) : ∀ t : TypeName,
    IM.Fine J (fun r : TypeName × Bool => t.Legible → r.1.Legible) (qualifyType true t)
  | .nil => by rw [qualifyType]; exact .panic
  | .basic k => by rw [qualifyType]; exact .pure id
  | .named s => by
    rw [qualifyType]
    exact .bind (legibly_qualify hJ s) fun _ => .ite
      (.pure fun h1 h2 => by rw [TypeName.Legible] at h2; rw [namedType, TypeName.Legible]; exact h1 h2) (.pure fun _ => id)
  | .ptr e => by
    rw [qualifyType, TypeName.Legible]
    exact .bind (legibly_qualifyType hJ e) fun _ => .ite (.bind (.lift (.when legible_pointerType)) fun _ => .pure fun h1 h2 h3 => h1 (h2 h3))
      (.pure fun _ h => by rw [TypeName.Legible]; exact h)
  | .slice e => by
    rw [qualifyType, TypeName.Legible]
    exact .bind (legibly_qualifyType hJ e) fun _ => .ite (.bind (.lift (.when legible_sliceType)) fun _ => .pure fun h1 h2 h3 => h1 (h2 h3))
      (.pure fun _ h => by rw [TypeName.Legible]; exact h)
  | .array e n => by
    rw [qualifyType, TypeName.Legible]
    exact .bind (legibly_qualifyType hJ e) fun _ => .ite (.bind (.lift (.when (legible_arrayType n))) fun _ => .pure fun h1 h2 h3 => h1 (h2 h3))
      (.pure fun _ h => by rw [TypeName.Legible]; exact h)
  | .map e k => by
    rw [qualifyType, TypeName.Legible]
    exact .bind (legibly_qualifyType hJ k) fun _ => .bind (legibly_qualifyType hJ e) fun _ =>
      .ite (.bind (.lift (.when (P := _ ∧ _) fun h => legible_mapType h.1 h.2)) fun _ => .pure fun h1 h2 h3 h4 => h1 ⟨h3 h4.2, h2 h4.1⟩)
      (.pure fun _ _ h => by rw [TypeName.Legible]; exact h)
  | .chan e d => by
    rw [qualifyType, TypeName.Legible]
    exact .bind (legibly_qualifyType hJ e) fun _ => .ite (.bind (.lift (.when (legible_channelType d))) fun _ => .pure fun h1 h2 h3 => h1 (h2 h3))
      (.pure fun _ h => by rw [TypeName.Legible]; exact h)
  | .func s => by
    rw [qualifyType, TypeName.Legible]
    exact .bind (legibly_qualifySignature hJ s) fun _ => .ite (.bind (.lift (.when legible_funcTypeFromSig)) fun _ => .pure fun h1 h2 h3 => h1 (h2 h3))
      (.pure fun _ h => by rw [TypeName.Legible]; exact h)
  | .struct fs => by
    rw [qualifyType, TypeName.Legible]
    exact .bind (legibly_qualifyFields hJ fs) fun _ => .ite (.pure fun h1 h2 => by rw [structType, TypeName.Legible]; exact h1 h2)
      (.pure fun _ h => by rw [TypeName.Legible]; exact h)
  | .interface ms es => by
    rw [qualifyType, TypeName.Legible]
    exact .bind (legibly_qualifySymbols hJ es) fun _ => .bind (legibly_qualifyMethods hJ ms) fun _ =>
      .ite (.pure fun h1 h2 h3 => by rw [interfaceType, TypeName.Legible]; exact ⟨h1 h3.1, h2 h3.2⟩)
      (.pure fun _ _ h => by rw [TypeName.Legible]; exact h)
theorem legibly_qualifySignature (hJ : NamesLegible J) : ∀ s : Signature,
    IM.Fine J (fun r : Signature × Bool => s.Legible → r.1.Legible) (qualifySignature true s)
  | ⟨args, results, v⟩ => by
    rw [qualifySignature, Signature.Legible]
    exact .bind (legibly_qualifyArgs hJ args) fun _ => .bind (legibly_qualifyArgs hJ results) fun _ =>
      .ite (.pure fun h1 h2 h3 => by rw [Signature.Legible]; exact ⟨h2 h3.1, h1 h3.2⟩)
      (.pure fun _ _ h => by rw [Signature.Legible]; exact h)
theorem legibly_qualifyArgs (hJ : NamesLegible J) : ∀ l : List ArgType,
    IM.Fine J (fun r : List ArgType × Bool => LegibleArgs l → LegibleArgs r.1) (qualifyArgs true l)
  | [] => by rw [qualifyArgs]; exact .pure id
  | ⟨n, t⟩ :: l => by
    rw [qualifyArgs, LegibleArgs]
    exact .bind (legibly_qualifyType hJ t) fun _ => .bind (legibly_qualifyArgs hJ l) fun _ =>
      .pure fun h1 h2 h3 => by rw [LegibleArgs]; exact ⟨h3.1, h2 h3.2.1, h1 h3.2.2⟩
theorem legibly_qualifyFields (hJ : NamesLegible J) : ∀ l : List FieldType,
    IM.Fine J (fun r : List FieldType × Bool => LegibleFields l → LegibleFields r.1) (qualifyFields true l)
  | [] => by rw [qualifyFields]; exact .pure id
  | ⟨n, t, g⟩ :: l => by
    rw [qualifyFields, LegibleFields]
    exact .bind (legibly_qualifyType hJ t) fun _ => .bind (legibly_qualifyFields hJ l) fun _ =>
      .pure fun h1 h2 h3 => by rw [LegibleFields]; exact ⟨h3.1, h2 h3.2.1, h1 h3.2.2⟩
theorem legibly_qualifyMethods (hJ : NamesLegible J) : ∀ l : List MethodType,
    IM.Fine J (fun r : List MethodType × Bool => LegibleMethods l → LegibleMethods r.1) (qualifyMethods true l)
  | [] => by rw [qualifyMethods]; exact .pure id
  | ⟨n, s⟩ :: l => by
    rw [qualifyMethods, LegibleMethods]
    exact .bind (legibly_qualifySignature hJ s) fun _ => .bind (legibly_qualifyMethods hJ l) fun _ =>
      .pure fun h1 h2 h3 => by rw [LegibleMethods]; exact ⟨h3.1, h2 h3.2.1, h1 h3.2.2⟩
end

theorem legibly_ensureTypeImported (hJ : NamesLegible J) (t : TypeName) :
    IM.Fine J (fun r : TypeName => t.Legible → r.Legible) (ensureTypeImported t) :=
  .bind (legibly_qualifyType hJ t) fun _ => .pure id
theorem legibly_ensureAllTypesImported (hJ : NamesLegible J) (s : Signature) :
    IM.Fine J (fun r : Signature => s.Legible → r.Legible) (ensureAllTypesImported s) :=
  .bind (legibly_qualifySignature hJ s) fun _ => .pure id

theorem legibly_qualifySymOrRef (hJ : NamesLegible J) (o : Arg) (s : SymbolOrMethodRef) :
    IM.Fine J (fun r : Arg => o.Legible → s.Legible → r.Legible) (qualifySymOrRef o s) := by
  cases s with
  | symbol s => exact .bind (legibly_qualify hJ s) fun _ => .pure fun h1 _ h2 => h1 h2
  | method m => exact .bind (legibly_qualify hJ m.type) fun _ => .ite (.pure fun h1 _ h2 => ⟨h1 h2.1, h2.2⟩) (.pure fun _ h _ => h)

/-! ### Specs as references -/

theorem legible_packageAt {h : Heap} (hh : h.Legible) (p : Ptr) :
    Outcome.Is (fun q : Package => SourceText q.name) (packageAt h p) :=
  .bind (.deref fun f hf => (hh.files p f hf).2.2) fun _ h1 => .ok h1

theorem legible_symbolAt {h : Heap} (hh : h.Legible) {c : ValueSpec} (hc : ∀ n ∈ c.names, SourceText n) (i : Nat) :
    Outcome.Is Symbol.Legible (c.symbolAt h i) := by
  rw [ValueSpec.symbolAt]
  split
  · exact .panic
  · split
    · exact .panic
    · rename_i n hn
      exact .bind (legible_packageAt hh _) fun _ h1 => .ok ⟨h1, hc n (List.mem_of_getElem? hn)⟩

theorem legible_valueSymbol {h : Heap} (hh : h.Legible) {c : ValueSpec} (hc : ∀ n ∈ c.names, SourceText n) :
    Outcome.Is Symbol.Legible (c.toSymbol h) := .ite .panic (legible_symbolAt hh hc 0)

theorem legible_typeSymbol {h : Heap} (hh : h.Legible) {t : TypeSpec} (ht : SourceText t.name) :
    Outcome.Is Symbol.Legible (t.toSymbol h) := by
  rw [TypeSpec.toSymbol]
  refine .ite .panic ?_
  split
  · exact .panic
  · exact .bind (legible_packageAt hh _) fun _ h1 => .ok ⟨h1, ht⟩

theorem legible_funcSymbol {h : Heap} (hh : h.Legible) {f : FuncSpec} (hn : SourceText f.name)
    (hr : ∀ r, f.receiver = some r → SourceText r.name ∧ SourceText r.type) :
    Outcome.Is SymbolOrMethodRef.Legible (f.toSymbol h) := by
  rw [FuncSpec.toSymbol]
  split
  · exact .panic
  · refine .bind (legible_packageAt hh _) fun _ h1 => ?_
    split
    · rename_i r hr'
      exact .ok ⟨⟨h1, (hr r hr').2⟩, hn⟩
    · exact .ok ⟨h1, hn⟩

theorem legible_methodRef {h : Heap} (hh : h.Legible) {m : InterfaceMethod} (hn : SourceText m.name) :
    Outcome.Is (fun r : MethodReference => r.type.Legible ∧ SourceText r.method) (m.toMethodRef h) := by
  rw [InterfaceMethod.toMethodRef]
  split
  · exact .panic
  · exact .bind (.deref fun t ht => (hh.types _ t ht).2.1) fun _ h1 => .bind (legible_typeSymbol hh h1) fun _ h2 => .ok ⟨h2, hn⟩

/-! ### Arguments -/

theorem legibly_qualifyArg (hJ : NamesLegible J) (h : Heap) (a : Arg) :
    IM.Fine J (fun r : Arg => h.Legible → a.Legible → r.Legible) (qualifyArg h a) := by
  cases a <;> simp only [qualifyArg]
  case package a => exact .bind (legibly_registerPackage hJ a) fun _ => .ite (.pure fun h1 _ _ => h1) (.pure fun _ _ h => h)
  case packagePtr a => exact .bind (legibly_registerPackage hJ a) fun _ => .ite (.pure fun h1 _ _ => h1) (.pure fun _ _ h => h)
  case symbol s => exact .bind (legibly_qualify hJ s) fun _ => .pure fun h1 _ h2 => h1 h2
  case symbolPtr s => exact .bind (legibly_qualify hJ s) fun _ => .pure fun h1 _ h2 => h1 h2
  case mref m => exact (legibly_qualifySymOrRef hJ _ _).mono fun _ h1 _ h2 => h1 h2 h2
  case mrefPtr m => exact (legibly_qualifySymOrRef hJ _ _).mono fun _ h1 _ h2 => h1 h2 h2
  case sig s => exact .bind (legibly_ensureAllTypesImported hJ s) fun _ => .pure fun h1 _ h2 => h1 h2
  case sigPtr s => exact .bind (legibly_ensureAllTypesImported hJ s) fun _ => .pure fun h1 _ h2 => h1 h2
  case typeName t => exact .bind (legibly_ensureTypeImported hJ t) fun _ => .pure fun h1 _ h2 => h1 h2
  case value p =>
    refine .bind (R := fun s => h.Legible → s.Legible) (.lift (.when (R := Symbol.Legible) fun hh => ?_)) fun _ =>
      (legibly_qualifySymOrRef hJ _ _).mono fun _ h1 h2 h3 h4 => h1 h4 (h2 h3)
    exact .bind (.deref fun c hc => (hh.values p c hc).2.1) fun _ h1 => legible_valueSymbol hh h1
  case typeSpec p =>
    refine .bind (R := fun s => h.Legible → s.Legible) (.lift (.when (R := Symbol.Legible) fun hh => ?_)) fun _ =>
      (legibly_qualifySymOrRef hJ _ _).mono fun _ h1 h2 h3 h4 => h1 h4 (h2 h3)
    exact .bind (.deref fun c hc => (hh.types p c hc).2.1) fun _ h1 => legible_typeSymbol hh h1
  case ifaceMethod p =>
    refine .bind (R := fun m : MethodReference => h.Legible → m.type.Legible ∧ SourceText m.method) (.lift (.when (R := (fun m : MethodReference => m.type.Legible ∧ SourceText m.method)) fun hh => ?_)) fun _ =>
      (legibly_qualifySymOrRef hJ _ _).mono fun _ h1 h2 h3 h4 => h1 h4 (h2 h3)
    exact .bind (.deref fun c hc => (hh.methods p c hc).2.1) fun _ h1 => legible_methodRef hh h1
  case func p =>
    refine .bind (R := fun s => h.Legible → s.Legible) (.lift (.when (R := SymbolOrMethodRef.Legible) fun hh => ?_)) fun _ =>
      (legibly_qualifySymOrRef hJ _ _).mono fun _ h1 h2 h3 h4 => h1 h4 (h2 h3)
    exact .bind (.deref fun c hc => hh.funcs p c hc) fun _ h1 => legible_funcSymbol hh h1.2.1 h1.2.2.2
  case reflectType t s =>
    exact .bind (.lift (.when fun ht => legible_ofReflect t ht)) fun _ => .bind (legibly_ensureTypeImported hJ _) fun _ =>
      .pure fun h1 h2 _ h3 => h1 (h2 h3.1)
  case goType t s =>
    exact .bind (.lift (.when fun ht => legible_ofGoType t ht)) fun _ => .bind (legibly_ensureTypeImported hJ _) fun _ =>
      .pure fun h1 h2 _ h3 => h1 (h2 h3.1)
  case goObject o s =>
    exact .bind (.lift (.when fun ho => legible_symbolForGoObject ho)) fun _ =>
      (legibly_qualifySymOrRef hJ _ _).mono fun _ h1 h2 _ h3 => h1 h3 (h2 h3.1)
  case goPackage g s =>
    exact .bind (.lift fun _ _ => trivial) fun _ => .bind (legibly_registerPackage hJ _) fun _ => .pure fun h1 _ _ _ => h1
  all_goals exact .pure fun _ h => h

theorem legibly_qualifyArgList (hJ : NamesLegible J) {h : Heap} (hh : h.Legible) : ∀ (l : List Arg) {i l' i'},
    qualifyArgList h l i = (.ok (), l', i') → Ext i' J → (∀ a ∈ l, a.Legible) → ∀ a ∈ l', a.Legible
  | [], i, l', i', he, _, _ => by
    simp only [qualifyArgList, Prod.mk.injEq] at he
    obtain ⟨-, rfl, -⟩ := he
    simp
  | a :: l, i, l', i', he, hj, hl => by
    simp only [qualifyArgList] at he
    rcases h1 : qualifyArg h a i with ⟨b | _ | _, i1⟩ <;> rw [h1] at he
    · dsimp only at he
      rcases h2 : qualifyArgList h l i1 with ⟨o, m, i2⟩
      rw [h2] at he
      simp only [Prod.mk.injEq] at he
      obtain ⟨rfl, rfl, rfl⟩ := he
      have h3 := (synced_qualifyArgList h l).1 i1
      rw [h2] at h3
      intro x hx
      rcases List.mem_cons.1 hx with rfl | hx
      · exact (legibly_qualifyArg hJ h a).yields _ _ _ h1 (h3.trans hj) hh (hl a (by simp))
      · exact legibly_qualifyArgList hJ hh l h2 hj (fun a ha => hl a (by simp [ha])) x hx
    · simp at he
    · simp at he

/-! ### Specs and code -/

/-- If the heap is legible and `P`, and the imports in the end are among those of `J`, then the heap is legible
afterwards and the result is as said. -/
structure QM.Fine {α : Type} (J : Imports) (P : Prop) (R : α → Prop) (x : QM α) : Prop where
  ext : ∀ h i, Ext i (x h i).2.2
  yields : ∀ h i a h' i', x h i = (.ok a, h', i') → Ext i' J → P → h.Legible → h'.Legible ∧ R a

namespace QM.Fine
variable {α β : Type} {P : Prop} {R : α → Prop} {S : β → Prop}

theorem ret {a : α} (h : P → R a) : QM.Fine J P R (QM.ret a) :=
  ⟨fun _ _ => .refl _, fun _ _ _ _ _ he _ hp hh => by cases he; exact ⟨hh, h hp⟩⟩
theorem hang : QM.Fine J P R (QM.hang : QM α) := ⟨fun _ _ => .refl _, fun _ _ _ _ _ he => by cases he⟩
theorem modify {f : Heap → Heap} (h : ∀ h, P → h.Legible → (f h).Legible) : QM.Fine J P (fun _ => True) (QM.modify f) :=
  ⟨fun _ _ => .refl _, fun h' _ _ _ _ he _ hp hh => by cases he; exact ⟨h h' hp hh, trivial⟩⟩

theorem read {m : Heap → Ptr → Option α} {p : Ptr} (h : ∀ h, h.Legible → ∀ a, m h p = some a → R a) :
    QM.Fine J P R (QM.read m p) := by
  refine ⟨fun _ _ => .refl _, fun h' i a h'' i' he _ _ hh => ?_⟩
  simp only [QM.read, Prod.mk.injEq] at he
  obtain ⟨h1, rfl, -⟩ := he
  exact ⟨hh, Outcome.Is.deref (R := R) (fun a ha => h _ hh a ha) a h1⟩

theorem lift {x : Heap → IM α} (hx : ∀ h, IM.Fine J (fun a => P → h.Legible → R a) (x h)) : QM.Fine J P R (QM.lift x) := by
  refine ⟨fun h i => (hx h).ext i, fun h i a h' i' he hj hp hh => ?_⟩
  simp only [QM.lift, Prod.mk.injEq] at he
  obtain ⟨h1, rfl, h3⟩ := he
  exact ⟨hh, (hx h).yields i a i' (Prod.ext h1 h3) hj hp hh⟩

theorem bind {x : QM α} {f : α → QM β} (hx : QM.Fine J P R x) (hf : ∀ a, QM.Fine J (P ∧ R a) S (f a)) :
    QM.Fine J P S (QM.bind x f) := by
  refine ⟨fun h i => ?_, fun h i b h2 i2 he hj hp hh => ?_⟩
  · refine (hx.ext h i).trans ?_
    unfold QM.bind
    rcases he : x h i with ⟨a | _ | _, h', i'⟩
    · exact (hf a).ext h' i'
    · exact .refl _
    · exact .refl _
  · obtain ⟨a, h1, i1, h3, h4⟩ := QM.bind_eq_ok he
    have h5 := (hf a).ext h1 i1
    rw [h4] at h5
    obtain ⟨h6, h7⟩ := hx.yields _ _ _ _ _ h3 (h5.trans hj) hp hh
    exact (hf a).yields _ _ _ _ _ h4 hj ⟨hp, h7⟩ h6

theorem weaken {Q : Prop} {x : QM α} (hx : QM.Fine J Q R x) (h : P → Q) : QM.Fine J P R x :=
  ⟨hx.ext, fun _ _ _ _ _ he hj hp hh => hx.yields _ _ _ _ _ he hj (h hp) hh⟩

theorem forEach {f : α → QM Unit} (hf : ∀ a, QM.Fine J True (fun _ => True) (f a)) :
    ∀ {P : Prop} (l), QM.Fine J P (fun _ => True) (QM.forEach f l)
  | _, [] => .ret fun _ => trivial
  | _, a :: l => .bind ((hf a).weaken fun _ => trivial) fun _ => .forEach hf l

end QM.Fine

theorem legibly_codeElem (hJ : NamesLegible J) (x : CodeElem) : QM.Fine J True (fun _ => True) x.qualify := by
  refine ⟨(synced_codeElem x).ext, ?_⟩
  cases x with
  | line format p =>
    intro h i a h' i' he hj _ hh
    simp only [CodeElem.qualify] at he
    cases hp : h.args p with
    | none => rw [hp] at he; cases he
    | some l =>
      rw [hp] at he
      dsimp only at he
      rcases hl : qualifyArgList h l i with ⟨o, l', i1⟩
      rw [hl] at he
      simp only [Prod.mk.injEq] at he
      obtain ⟨rfl, rfl, rfl⟩ := he
      have h1 := legibly_qualifyArgList hJ hh l hl hj (hh.args p l hp)
      exact ⟨{ hh with args := upd_forall hh.args h1 }, trivial⟩
  | templ p =>
    intro h i a h' i' he hj _ hh
    obtain ⟨t, h1, i1, h2, h3⟩ := QM.bind_eq_ok he
    obtain ⟨d, h4, i4, h5, h6⟩ := QM.bind_eq_ok h3
    simp only [QM.read, QM.lift, QM.modify, Prod.mk.injEq] at h2 h5 h6
    obtain ⟨-, rfl, -⟩ := h2
    obtain ⟨-, rfl, -⟩ := h5
    obtain ⟨-, rfl, -⟩ := h6
    exact ⟨{ hh with }, trivial⟩

theorem legibly_code (hJ : NamesLegible J) {P : Prop} (cb : CodeBlock) : QM.Fine J P (fun _ => True) (qualifyCode cb) :=
  .forEach (legibly_codeElem hJ) cb

theorem legibly_ifaceElem (hJ : NamesLegible J) (e : IfaceElem) : QM.Fine J True (fun _ => True) e.qualify := by
  cases e with
  | embed p =>
    refine .bind (.read (R := fun e : InterfaceEmbed => SourceText e.comment ∧ e.type.Legible) fun h hh a ha => hh.embeds p a ha)
      fun e => .bind (R := fun r : InterfaceEmbed × Bool => SourceText r.1.comment ∧ r.1.type.Legible) (.lift fun h => ?_) fun r => .modify ?_
    · exact .bind (legibly_qualify hJ _) fun _ => .pure fun h1 h2 _ => ⟨h2.2.1, h1 h2.2.2⟩
    · intro h hp hh
      exact { hh with embeds := upd_forall hh.embeds hp.2 }
  | method p =>
    refine .bind (.read (R := fun m : InterfaceMethod => SourceText m.comment ∧ SourceText m.name ∧ m.signature.Legible)
      fun h hh a ha => hh.methods p a ha) fun m =>
      .bind (R := fun r : InterfaceMethod × Bool => SourceText r.1.comment ∧ SourceText r.1.name ∧ r.1.signature.Legible)
        (.lift fun h => ?_) fun r => .modify ?_
    · exact .bind (legibly_qualifySignature hJ _) fun _ => .pure fun h1 h2 _ => ⟨h2.2.1, h2.2.2.1, h1 h2.2.2.2⟩
    · intro h hp hh
      exact { hh with methods := upd_forall hh.methods hp.2 }

theorem legibly_spec (hJ : NamesLegible J) : ∀ (fuel : Nat) (p : Ptr), QM.Fine J True (fun _ => True) (qualifySpec fuel p)
  | 0, _ => .hang
  | fuel + 1, p => by
    rw [qualifySpec]
    refine .bind (.read (R := fun s : TypeSpec => SourceText s.comment ∧ SourceText s.name ∧ s.underlying.Legible)
      fun h hh a ha => hh.types p a ha) fun ts => .bind (R := fun u : TypeName => u.Legible)
      (.lift fun _ => (legibly_ensureTypeImported hJ _).mono fun _ h1 h2 _ => h1 h2.2.2.2) fun u => .bind (.modify ?_) fun _ =>
      .bind (.forEach (fun q => ?_) _) fun _ => .forEach (legibly_ifaceElem hJ) _
    · intro h hp hh
      exact { hh with types := upd_forall hh.types ⟨hp.1.2.1, hp.1.2.2.1, hp.2⟩ }
    · rw [qualifyField]
      refine .bind (.read (R := fun f : FieldSpec => SourceText f.comment ∧ SourceText f.name ∧ f.type.Legible)
        fun h hh a ha => hh.fields q a ha) fun f => ?_
      cases hf : f.type with
      | nil => exact .ret fun _ => trivial
      | name t =>
        refine .bind (R := fun u : TypeName => u.Legible)
          (.lift fun _ => (legibly_ensureTypeImported hJ _).mono fun _ h1 h2 _ => h1 ?_) fun u => .modify ?_
        · exact h2.2.2.2
        · intro h hp hh
          exact { hh with fields := upd_forall hh.fields ⟨hp.1.2.1, hp.1.2.2.1, hp.2⟩ }
      | spec r => exact (legibly_spec hJ fuel r).weaken fun _ => trivial

theorem legibly_value (hJ : NamesLegible J) (fuel : Nat) (p : Ptr) : QM.Fine J True (fun _ => True) (qualifyValue fuel p) := by
  rw [qualifyValue]
  refine .bind (.read (R := fun s : ValueSpec => SourceText s.comment ∧ (∀ n ∈ s.names, SourceText n) ∧ s.type.Legible)
    fun h hh a ha => hh.values p a ha) fun c => .bind (R := fun r : TypeRef => r.Legible) ?_ fun t => .bind (.modify ?_) fun _ => ?_
  · cases hc : c.type with
    | nil => exact .ret fun _ => trivial
    | name t =>
      refine .bind (R := fun u : TypeName => u.Legible)
          (.lift fun _ => (legibly_ensureTypeImported hJ _).mono fun _ h1 h2 _ => h1 ?_) fun _ => .ret fun h => h.2
      exact h2.2.2.2
    | spec r => exact .bind ((legibly_spec hJ _ _).weaken fun _ => trivial) fun _ => .ret fun _ => trivial
  · intro h hp hh
    exact { hh with values := upd_forall hh.values ⟨hp.1.2.1, hp.1.2.2.1, hp.2⟩ }
  · cases c.init with
    | none => exact .ret fun _ => trivial
    | some b => exact .bind (R := fun _ => True) (.read fun _ _ _ _ => trivial) fun cb => legibly_code hJ cb

theorem legibly_func (hJ : NamesLegible J) (p : Ptr) : QM.Fine J True (fun _ => True) (qualifyFunc p) := by
  refine .bind (.read (R := fun f : FuncSpec => SourceText f.comment ∧ SourceText f.name ∧ f.signature.Legible ∧
    ∀ r, f.receiver = some r → SourceText r.name ∧ SourceText r.type)
    fun h hh a ha => hh.funcs p a ha) fun f => .bind (R := fun s : Signature => s.Legible)
    (.lift fun _ => (legibly_ensureAllTypesImported hJ _).mono fun _ h1 h2 _ => h1 h2.2.2.2.1) fun s => .bind (.modify ?_) fun _ =>
    legibly_code hJ _
  intro h hp hh
  exact { hh with funcs := upd_forall hh.funcs ⟨hp.1.2.1, hp.1.2.2.1, hp.2, hp.1.2.2.2.2⟩ }

theorem legibly_fileElem (hJ : NamesLegible J) (fuel : Nat) (e : FileElem) : QM.Fine J True (fun _ => True) (e.qualify fuel) := by
  cases e with
  | values p => exact .bind (R := fun _ => True) (.read fun _ _ _ _ => trivial) fun _ => .forEach (legibly_value hJ fuel) _
  | types p => exact .bind (R := fun _ => True) (.read fun _ _ _ _ => trivial) fun _ => .forEach (legibly_spec hJ fuel) _
  | func p => exact legibly_func hJ p

theorem legible_qualifyFile {fuel : Nat} {p : Ptr} {h h' : Heap} {f f' : GoFile} (hx : qualifyFile fuel p h = (.ok (), h'))
    (hf : h.files p = some f) (hf' : h'.files p = some f') (hh : h.Legible) (hJ : NamesLegible f'.imports) : h'.Legible := by
  rw [qualifyFile] at hx
  simp only [hf] at hx
  rcases hq : QM.forEach (FileElem.qualify fuel) f.elements h f.imports with ⟨o, h1, i1⟩
  rw [hq] at hx
  simp only [Prod.mk.injEq] at hx
  obtain ⟨rfl, rfl⟩ := hx
  simp only [upd_same, Option.some.injEq] at hf'
  subst hf'
  have h2 := (QM.Fine.forEach (P := True) (legibly_fileElem hJ fuel) f.elements).yields _ _ _ _ _ hq (.refl _) trivial hh
  exact { h2.1 with files := upd_forall h2.1.files (hh.files p f hf) }

end Gopoet
