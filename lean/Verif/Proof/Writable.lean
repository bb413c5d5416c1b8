import Verif.Proof.DataFit
import Verif.Proof.TemplateFile
import Verif.Props.Code
/-! When the qualification pass gets to the end. -/

namespace Gopoet
open Imports

/-! ### Arguments -/

theorem inFile_iff {h : Heap} {o : Option Ptr} :
    InFile h o ↔ ∃ p pk, o = some p ∧ packageAt h p = .ok pk := by
  constructor
  · rintro ⟨p, f, rfl, hf⟩
    exact ⟨p, f.package, rfl, by rw [packageAt, deref_some hf]; rfl⟩
  · rintro ⟨p, pk, rfl, hp⟩
    obtain ⟨f, h1, -⟩ := bind_eq_ok hp
    exact ⟨p, f, rfl, deref_eq_ok h1⟩

theorem typeSymbol_iff {h : Heap} {t : TypeSpec} : (∃ s, t.toSymbol h = .ok s) ↔ t.name ≠ [] ∧ InFile h t.parent := by
  rw [inFile_iff]
  unfold TypeSpec.toSymbol
  constructor
  · rintro ⟨s, hs⟩
    split at hs
    · simp at hs
    · rename_i hn
      split at hs
      · simp at hs
      · rename_i p hp
        obtain ⟨pk, h1, -⟩ := bind_eq_ok hs
        exact ⟨hn, p, pk, hp, h1⟩
  · rintro ⟨hn, p, pk, hp, h1⟩
    rw [if_neg hn, hp]
    exact ⟨_, by dsimp only; rw [h1]; rfl⟩

theorem refers_value {h : Heap} {p : Ptr} :
    (∃ s, (deref h.values p).bind (·.toSymbol h) = .ok s) ↔ Arg.Refers h (.value p) := by
  constructor
  · rintro ⟨s, hs⟩
    obtain ⟨c, h1, h2⟩ := bind_eq_ok hs
    unfold ValueSpec.toSymbol ValueSpec.symbolAt at h2
    split at h2
    · simp at h2
    · rename_i hl
      split at h2
      · simp at h2
      · rename_i f hf
        split at h2
        · simp at h2
        · rename_i n hn
          obtain ⟨pk, h3, -⟩ := bind_eq_ok h2
          obtain ⟨file, h4, -⟩ := bind_eq_ok h3
          have hnames : c.names = [n] := by
            rcases hc : c.names with _ | ⟨x, _ | ⟨y, l⟩⟩ <;> simp_all
          exact ⟨_, .value (deref_eq_ok h1) hnames hf (deref_eq_ok h4)⟩
  · rintro ⟨r, hr⟩
    cases hr with
    | value h1 h2 h3 h4 =>
      rw [deref_some h1]
      simp only [Outcome.bind, ValueSpec.toSymbol, ValueSpec.symbolAt, h2, h3, packageAt, deref_some h4]
      exact ⟨_, rfl⟩

theorem refers_typeSpec {h : Heap} {p : Ptr} :
    (∃ s, (deref h.types p).bind (·.toSymbol h) = .ok s) ↔ Arg.Refers h (.typeSpec p) := by
  constructor
  · rintro ⟨s, hs⟩
    obtain ⟨c, h1, h2⟩ := bind_eq_ok hs
    obtain ⟨hn, f, file, h3, h4⟩ := typeSymbol_iff.1 ⟨s, h2⟩
    exact ⟨_, .typeSpec (deref_eq_ok h1) hn h3 h4⟩
  · rintro ⟨r, hr⟩
    cases hr with
    | typeSpec h1 h2 h3 h4 =>
      obtain ⟨s, hs⟩ := (typeSymbol_iff (h := h)).2 ⟨h2, _, _, h3, h4⟩
      exact ⟨s, by rw [deref_some h1]; exact hs⟩

theorem refers_func {h : Heap} {p : Ptr} :
    (∃ s, (deref h.funcs p).bind (·.toSymbol h) = .ok s) ↔ Arg.Refers h (.func p) := by
  constructor
  · rintro ⟨s, hs⟩
    obtain ⟨c, h1, h2⟩ := bind_eq_ok hs
    unfold FuncSpec.toSymbol at h2
    split at h2
    · simp at h2
    · rename_i f hf
      obtain ⟨pk, h3, -⟩ := bind_eq_ok h2
      obtain ⟨file, h4, -⟩ := bind_eq_ok h3
      cases hr : c.receiver with
      | none => exact ⟨_, .func (deref_eq_ok h1) hr hf (deref_eq_ok h4)⟩
      | some r => exact ⟨_, .method (deref_eq_ok h1) hr hf (deref_eq_ok h4)⟩
  · rintro ⟨r, hr⟩
    cases hr with
    | func h1 h2 h3 h4 | method h1 h2 h3 h4 =>
      rw [deref_some h1]
      simp only [Outcome.bind, FuncSpec.toSymbol, h2, h3, packageAt, deref_some h4]
      exact ⟨_, rfl⟩

theorem refers_ifaceMethod {h : Heap} {p : Ptr} :
    (∃ s, (deref h.methods p).bind (·.toMethodRef h) = .ok s) ↔ Arg.Refers h (.ifaceMethod p) := by
  constructor
  · rintro ⟨s, hs⟩
    obtain ⟨c, h1, h2⟩ := bind_eq_ok hs
    unfold InterfaceMethod.toMethodRef at h2
    split at h2
    · simp at h2
    · rename_i tp htp
      obtain ⟨t, h3, h4⟩ := bind_eq_ok h2
      obtain ⟨sy, h5, -⟩ := bind_eq_ok h4
      obtain ⟨hn, f, file, h6, h7⟩ := typeSymbol_iff.1 ⟨sy, h5⟩
      exact ⟨_, .ifaceMethod (deref_eq_ok h1) htp (deref_eq_ok h3) hn h6 h7⟩
  · rintro ⟨r, hr⟩
    cases hr with
    | @ifaceMethod _ m _ _ _ _ h1 h2 h3 h4 h5 h6 =>
      obtain ⟨s, hs⟩ := (typeSymbol_iff (h := h)).2 ⟨h4, _, _, h5, h6⟩
      rw [deref_some h1]
      simp only [Outcome.bind, InterfaceMethod.toMethodRef, h2]
      rw [deref_some h3]
      refine ⟨{ type := s, method := m.name }, ?_⟩
      show (TypeSpec.toSymbol h _ >>= _) = _
      rw [hs]
      rfl

theorem returns_symOrRef (orig : Arg) (s : SymbolOrMethodRef) : Returns (qualifySymOrRef orig s) := by
  cases s <;> exact .bind (returns_ensureImported _) fun _ => by first | exact .pure _ | exact .ite (.pure _) (.pure _)

theorem returns_ensureTypeImported {t : TypeName} (hv : t.valid = true) : Returns (ensureTypeImported t) :=
  fun _ => let ⟨j, hj, _⟩ := ensureTypeImported_eq hv; ⟨_, j, hj⟩

theorem returns_ensureAllTypesImported {t : Signature} (hv : t.valid = true) : Returns (ensureAllTypesImported t) :=
  fun _ => let ⟨j, hj, _⟩ := ensureAllTypesImported_eq hv; ⟨_, j, hj⟩

theorem bind_lift_ok {α β} {o : Outcome α} {f : α → IM β} {i : Imports} (hf : ∀ a, o = .ok a → Returns (f a)) :
    (∃ b j, (IM.lift o >>= f) i = (.ok b, j)) ↔ ∃ a, o = .ok a := by
  constructor
  · rintro ⟨b, j, hb⟩
    obtain ⟨a, k, h1, -⟩ := IM.bind_eq_ok hb
    rw [IM.lift_apply] at h1
    exact ⟨a, congrArg Prod.fst h1⟩
  · rintro ⟨a, rfl⟩
    rw [lift_bind]
    exact hf a rfl i

/-- An argument can be qualified if and only if it refers to something. -/
theorem qualifyArg_iff {h : Heap} {a : Arg} (ht : a.TypesValid) (i : Imports) :
    (∃ a' j, qualifyArg h a i = (.ok a', j)) ↔ a.Refers h := by
  cases a <;> rw [qualifyArg]
  case package p =>
    exact ⟨fun _ => ⟨_, .package p⟩, fun _ => (Returns.bind (returns_registerPackage p) fun _ => .ite (.pure _) (.pure _)) i⟩
  case packagePtr p =>
    exact ⟨fun _ => ⟨_, .packagePtr p⟩, fun _ => (Returns.bind (returns_registerPackage p) fun _ => .ite (.pure _) (.pure _)) i⟩
  case symbol s =>
    exact ⟨fun _ => ⟨_, .symbol s⟩, fun _ => (Returns.bind (returns_ensureImported s) fun _ => .pure _) i⟩
  case symbolPtr s =>
    exact ⟨fun _ => ⟨_, .symbolPtr s⟩, fun _ => (Returns.bind (returns_ensureImported s) fun _ => .pure _) i⟩
  case mref m => exact ⟨fun _ => ⟨_, .mref m⟩, fun _ => returns_symOrRef _ _ i⟩
  case mrefPtr m => exact ⟨fun _ => ⟨_, .mrefPtr m⟩, fun _ => returns_symOrRef _ _ i⟩
  case sig s | sigPtr s =>
    exact ⟨fun _ => trivial, fun _ => (Returns.bind (returns_ensureAllTypesImported ht) fun _ => .pure _) i⟩
  case typeName t =>
    exact ⟨fun _ => ⟨_, .typeName t⟩, fun _ => (Returns.bind (returns_ensureTypeImported ht) fun _ => .pure _) i⟩
  case value p => rw [← refers_value]; exact bind_lift_ok fun s _ => returns_symOrRef _ _
  case typeSpec p => rw [← refers_typeSpec]; exact bind_lift_ok fun s _ => returns_symOrRef _ _
  case ifaceMethod p => rw [← refers_ifaceMethod]; exact bind_lift_ok fun s _ => returns_symOrRef _ _
  case func p => rw [← refers_func]; exact bind_lift_ok fun s _ => returns_symOrRef _ _
  case reflectType t text =>
    rw [bind_lift_ok fun t' ht' => .bind (returns_ensureTypeImported (ht t' ht')) fun _ => .pure _]
    exact ⟨fun ⟨t', h'⟩ => ⟨_, .reflectType h'⟩, fun ⟨r, hr⟩ => by cases hr with | reflectType h' => exact ⟨_, h'⟩⟩
  case goType t text =>
    rw [bind_lift_ok fun t' ht' => .bind (returns_ensureTypeImported (ht t' ht')) fun _ => .pure _]
    exact ⟨fun ⟨t', h'⟩ => ⟨_, .goType h'⟩, fun ⟨r, hr⟩ => by cases hr with | goType h' => exact ⟨_, h'⟩⟩
  case goObject o text =>
    rw [bind_lift_ok fun s _ => returns_symOrRef _ _]
    constructor
    · rintro ⟨s, hs⟩
      cases s with
      | symbol s => exact ⟨_, .goSymbol hs⟩
      | method s => exact ⟨_, .goMethod hs⟩
    · rintro ⟨r, hr⟩
      cases hr with
      | goSymbol h' => exact ⟨_, h'⟩
      | goMethod h' => exact ⟨_, h'⟩
  case goPackage g text =>
    rw [bind_lift_ok fun p _ => .bind (returns_registerPackage p) fun _ => .pure _]
    exact ⟨fun _ => ⟨_, .goPackage g text⟩, fun _ => ⟨_, rfl⟩⟩
  all_goals first | exact ⟨fun _ => trivial, fun _ => ⟨_, _, rfl⟩⟩ | (intros; simp_all)

/-- Refers to something, and has valid types. -/
def Arg.Fine (h : Heap) (a : Arg) : Prop := a.Refers h ∧ a.TypesValid

theorem fine_symbol (h : Heap) (s : Symbol) : Arg.Fine h (.symbol s) := ⟨⟨_, .symbol s⟩, trivial⟩

theorem gives_symOrRef {h : Heap} {orig : Arg} (ho : orig.Fine h) (s : SymbolOrMethodRef) :
    Gives (Arg.Fine h) (qualifySymOrRef orig s) := by
  cases s with
  | symbol s => exact .bind (.trivial _) fun s' _ => .pure (fine_symbol h _)
  | method m => exact .bind (.trivial _) fun s' _ => .ite (fun _ => .pure ⟨⟨_, .mrefPtr _⟩, trivial⟩) fun _ => .pure ho

theorem gives_ensureTypeImported {t : TypeName} (hv : t.valid = true) :
    Gives (fun t' => t'.valid = true) (ensureTypeImported t) := by
  intro i a j h
  obtain ⟨k, h1, -⟩ := ensureTypeImported_eq (i := i) hv
  rw [h1] at h
  cases h
  rw [valid_mapSymbols]; exact hv

theorem gives_ensureAllTypesImported {t : Signature} (hv : t.valid = true) :
    Gives (fun t' => t'.valid = true) (ensureAllTypesImported t) := by
  intro i a j h
  obtain ⟨k, h1, -⟩ := ensureAllTypesImported_eq (i := i) hv
  rw [h1] at h
  cases h
  rw [valid_mapSymbols_sig]; exact hv

theorem fine_qualifyArg {h : Heap} {a : Arg} (ht : a.TypesValid) : Gives (Arg.Fine h) (qualifyArg h a) := by
  intro i a' j hq
  have hr := (qualifyArg_iff ht i).1 ⟨a', j, hq⟩
  have hf : a.Fine h := ⟨hr, ht⟩
  revert hq
  suffices Gives (Arg.Fine h) (qualifyArg h a) from this i a' j
  cases a <;> rw [qualifyArg]
  case package p =>
    exact .bind (.trivial _) fun n _ => .ite (fun _ => .pure ⟨⟨_, .package _⟩, trivial⟩) fun _ => .pure hf
  case packagePtr p =>
    exact .bind (.trivial _) fun n _ => .ite (fun _ => .pure ⟨⟨_, .package _⟩, trivial⟩) fun _ => .pure hf
  case symbol s => exact .bind (.trivial _) fun s' _ => .pure (fine_symbol h _)
  case symbolPtr s => exact .bind (.trivial _) fun s' _ => .pure (fine_symbol h _)
  case mref m => exact gives_symOrRef hf _
  case mrefPtr m => exact gives_symOrRef hf _
  case sig s | sigPtr s =>
    exact .bind (gives_ensureAllTypesImported ht) fun s' hs' => .pure ⟨trivial, hs'⟩
  case typeName t => exact .bind (gives_ensureTypeImported ht) fun t' ht' => .pure ⟨⟨_, .typeName _⟩, ht'⟩
  case value p => exact .bind (.trivial _) fun s _ => gives_symOrRef hf _
  case typeSpec p => exact .bind (.trivial _) fun s _ => gives_symOrRef hf _
  case ifaceMethod p => exact .bind (.trivial _) fun s _ => gives_symOrRef hf _
  case func p => exact .bind (.trivial _) fun s _ => gives_symOrRef hf _
  case goObject o text => exact .bind (.trivial _) fun s _ => gives_symOrRef hf _
  case reflectType t text =>
    exact .bind (gives_lift ht) fun t1 ht1 => .bind (gives_ensureTypeImported ht1) fun t' ht' =>
      .pure ⟨⟨_, .typeName _⟩, ht'⟩
  case goType t text =>
    exact .bind (gives_lift ht) fun t1 ht1 => .bind (gives_ensureTypeImported ht1) fun t' ht' =>
      .pure ⟨⟨_, .typeName _⟩, ht'⟩
  case goPackage g text =>
    exact .bind (.trivial _) fun p _ => .bind (.trivial _) fun n _ => .pure ⟨trivial, trivial⟩
  all_goals first | exact .pure hf | (intros; simp_all)

theorem qualifyArgList_iff {h : Heap} : ∀ {l : List Arg}, (∀ a ∈ l, a.TypesValid) → ∀ i,
    (∃ l' j, qualifyArgList h l i = (.ok (), l', j)) ↔ ∀ a ∈ l, a.Refers h
  | [], _, i => ⟨fun _ => by simp, fun _ => ⟨_, _, rfl⟩⟩
  | a :: l, ht, i => by
    rw [qualifyArgList]
    have h1 := qualifyArg_iff (h := h) (ht a (by simp)) i
    rcases hq : qualifyArg h a i with ⟨a' | _ | _, i'⟩ <;> rw [hq] at h1 <;> dsimp only
    · have h2 := qualifyArgList_iff (h := h) (fun b hb => ht b (List.mem_cons_of_mem _ hb)) i'
      rcases hl : qualifyArgList h l i' with ⟨o, l', j⟩
      rw [hl] at h2
      simp only [List.forall_mem_cons]
      rw [← h2, ← h1]
      simp
    · have : ¬ a.Refers h := fun hr => by obtain ⟨_, _, hx⟩ := h1.2 hr; simp at hx
      simp [this]
    · have : ¬ a.Refers h := fun hr => by obtain ⟨_, _, hx⟩ := h1.2 hr; simp at hx
      simp [this]

theorem qualifyArgList_fine {h : Heap} : ∀ {l l' : List Arg} {i j : Imports} {o}, (∀ a ∈ l, a.TypesValid) →
    qualifyArgList h l i = (o, l', j) →
    (∀ a ∈ l', a.TypesValid) ∧ ((∀ a ∈ l', a.Refers h) ↔ ∀ a ∈ l, a.Refers h)
  | [], l', i, j, o, _, hq => by
    rw [qualifyArgList] at hq
    simp only [Prod.mk.injEq] at hq
    obtain ⟨-, rfl, -⟩ := hq
    simp
  | a :: l, l', i, j, o, ht, hq => by
    rw [qualifyArgList] at hq
    rcases ha : qualifyArg h a i with ⟨a' | _ | _, i'⟩ <;> rw [ha] at hq <;> dsimp only at hq
    · rcases hl : qualifyArgList h l i' with ⟨o', l2, j'⟩
      rw [hl] at hq
      simp only [Prod.mk.injEq] at hq
      obtain ⟨-, rfl, -⟩ := hq
      have h1 := fine_qualifyArg (h := h) (ht a (by simp)) _ _ _ ha
      have h2 := qualifyArgList_fine (fun b hb => ht b (List.mem_cons_of_mem _ hb)) hl
      have h3 := (qualifyArg_iff (ht a (by simp)) i).1 ⟨_, _, ha⟩
      refine ⟨by simpa using ⟨h1.2, h2.1⟩, ?_⟩
      simp only [List.forall_mem_cons]
      rw [h2.2]
      simp [h1.1, h3]
    · simp only [Prod.mk.injEq] at hq
      obtain ⟨-, rfl, -⟩ := hq
      exact ⟨ht, .rfl⟩
    · simp only [Prod.mk.injEq] at hq
      obtain ⟨-, rfl, -⟩ := hq
      exact ⟨ht, .rfl⟩

/-! ### What stays the same -/

/-- The spec that the type is, if it is one. -/
def TypeRef.specOf : TypeRef → Option Ptr
  | .spec p => some p
  | _ => none

theorem specOf_eq {t : TypeRef} {p : Ptr} : t.specOf = some p ↔ t = .spec p := by
  cases t <;> simp [TypeRef.specOf]

/-- The type is a struct type. -/
def TypeName.isStruct : TypeName → Bool
  | .struct _ => true
  | _ => false

theorem isStruct_iff {t : TypeName} : t.isStruct = true ↔ ∃ fs, t = .struct fs := by
  cases t <;> simp [TypeName.isStruct]

theorem isStruct_mapSymbols (g : Symbol → Symbol) (t : TypeName) : (t.mapSymbols g).isStruct = t.isStruct := by
  cases t <;> rfl

/-- The line has arguments that refer to something. -/
def LineRefers (h : Heap) (q : Ptr) : Prop := ∃ l, h.args q = some l ∧ ∀ a ∈ l, a.Refers h

/-- What is there, how it is connected, and what can be qualified is the same. -/
structure SameFrame (h h' : Heap) : Prop extends SameNames h h' where
  bodies : ∀ p, (h'.types p).map (fun t => (t.structBody, t.interfaceBody, t.underlying.isStruct)) =
    (h.types p).map (fun t => (t.structBody, t.interfaceBody, t.underlying.isStruct))
  fieldSpecs : ∀ p, (h'.fields p).map (·.type.specOf) = (h.fields p).map (·.type.specOf)
  valueSpecs : ∀ p, (h'.values p).map (fun c => (c.type.specOf, c.init)) =
    (h.values p).map (fun c => (c.type.specOf, c.init))
  codes : ∀ p, (h'.funcs p).map (·.code) = (h.funcs p).map (·.code)
  embeds : ∀ p, (h'.embeds p).map (fun _ => ()) = (h.embeds p).map (fun _ => ())
  templs : ∀ p, (h'.templs p).map (fun _ => ()) = (h.templs p).map (fun _ => ())
  lines : ∀ q, LineRefers h' q ↔ LineRefers h q

theorem SameFrame.refl (h : Heap) : SameFrame h h :=
  ⟨.refl h, fun _ => rfl, fun _ => rfl, fun _ => rfl, fun _ => rfl, fun _ => rfl, fun _ => rfl, fun _ => .rfl⟩

theorem SameFrame.symm {h h' : Heap} (a : SameFrame h h') : SameFrame h' h :=
  ⟨a.toSameNames.symm, fun p => (a.bodies p).symm, fun p => (a.fieldSpecs p).symm, fun p => (a.valueSpecs p).symm,
    fun p => (a.codes p).symm, fun p => (a.embeds p).symm, fun p => (a.templs p).symm, fun p => (a.lines p).symm⟩

theorem SameFrame.trans {h h' h'' : Heap} (a : SameFrame h h') (b : SameFrame h' h'') : SameFrame h h'' :=
  ⟨a.toSameNames.trans b.toSameNames, fun p => (b.bodies p).trans (a.bodies p),
    fun p => (b.fieldSpecs p).trans (a.fieldSpecs p), fun p => (b.valueSpecs p).trans (a.valueSpecs p),
    fun p => (b.codes p).trans (a.codes p), fun p => (b.embeds p).trans (a.embeds p),
    fun p => (b.templs p).trans (a.templs p), fun p => (b.lines p).trans (a.lines p)⟩

theorem SameNames.refers {h h' : Heap} (s : SameNames h h') (a : Arg) : a.Refers h' ↔ a.Refers h := by
  have h1 : ∀ {h h' : Heap}, SameNames h h' → a.Refers h → a.Refers h' := by
    intro h h' s hr
    cases a <;> first
      | exact hr
      | (obtain ⟨r, hr⟩ := hr; exact ⟨r, s.staysAll.denotes hr⟩)
  exact ⟨h1 s.symm, h1 s⟩

theorem SameNames.lineRefers {h h' : Heap} (s : SameNames h h') (q : Ptr) (ha : h'.args q = h.args q) :
    LineRefers h' q ↔ LineRefers h q := by
  unfold LineRefers
  rw [ha]
  simp only [s.refers]

theorem SameNames.parent {h h' : Heap} (a : SameNames h h') (r : SpecRef) : r.parent h' = r.parent h := by
  cases r with
  | value p =>
    have := congrArg (Option.map Prod.snd) (a.values p)
    simp only [Option.map_map] at this
    exact deref_map this
  | type p =>
    have := congrArg (Option.map Prod.snd) (a.types p)
    simp only [Option.map_map] at this
    exact deref_map this
  | func p =>
    have := congrArg (Option.map (fun x => x.2.2)) (a.funcs p)
    simp only [Option.map_map] at this
    exact deref_map this

theorem SameNames.present {h h' : Heap} (a : SameNames h h') (r : SpecRef) : r.present h' = r.present h := by
  unfold SpecRef.present
  rw [a.parent r]
  split
  · rename_i p _
    have := a.files p
    cases h1 : h.files p <;> cases h2 : h'.files p <;> simp_all
  · rfl
  · rfl

theorem SameNames.ready {h h' : Heap} (a : SameNames h h') {v : TVal} (hv : v.Ready h) : v.Ready h' :=
  ⟨specsPresent_mono (fun r hr => (a.present r).trans hr) v hv.present, hv.valid, hv.settable, hv.flatPtrs⟩

theorem upd_forall {α} {m : Ptr → Option α} {p : Ptr} {x' : α} {P : α → Prop} (hm : ∀ q x, m q = some x → P x)
    (hx : P x') : ∀ q x, upd m p x' q = some x → P x := by
  intro q x hq
  by_cases he : q = p
  · subst he
    rw [upd_same] at hq
    exact Option.some.inj hq ▸ hx
  · rw [upd_ne _ _ he] at hq
    exact hm q x hq

/-- One step keeps what is there, and the types valid. -/
theorem QStep.frame {h i h' i'} (a : QStep h i h' i') (hs : h.Sound) : SameFrame h h' ∧ h'.Sound := by
  have sn := a.sameNames
  cases a with
  | imports _ => exact ⟨.refl _, hs⟩
  | @type p ts u j hp he =>
    obtain ⟨k, h1, -⟩ := ensureTypeImported_eq (i := i) (hs.types _ _ hp)
    rw [h1] at he
    cases he
    refine ⟨⟨sn, upd_map hp ?_, fun _ => rfl, fun _ => rfl, fun _ => rfl, fun _ => rfl, fun _ => rfl,
      fun q => sn.lineRefers q rfl⟩, ⟨upd_forall (P := fun t : TypeSpec => t.underlying.valid = true) hs.types ?_, hs.fields,
      hs.values, hs.methods, hs.funcs, hs.args, fun q t ht => sn.ready (hs.templs q t ht)⟩⟩
    · simp [isStruct_mapSymbols]
    · show TypeName.valid _ = true
      rw [valid_mapSymbols]; exact hs.types _ _ hp
  | @field p f t t' j hp ht he =>
    have hv := hs.fields _ _ _ hp ht
    refine ⟨⟨sn, fun _ => rfl, upd_map hp ?_, fun _ => rfl, fun _ => rfl, fun _ => rfl, fun _ => rfl,
      fun q => sn.lineRefers q rfl⟩, ⟨hs.types, ?_, hs.values, hs.methods, hs.funcs, hs.args,
      fun q t ht => sn.ready (hs.templs q t ht)⟩⟩
    · simp [ht, TypeRef.specOf]
    · intro q x t2 hq hx
      refine upd_forall (P := fun f => ∀ t, f.type = .name t → t.valid = true) (fun q x hq t ht => hs.fields q x t hq ht)
        ?_ q x hq t2 hx
      intro t3 h3
      cases h3
      exact gives_ensureTypeImported hv _ _ _ he
  | @embed p e s j hp he =>
    exact ⟨⟨sn, fun _ => rfl, fun _ => rfl, fun _ => rfl, fun _ => rfl, upd_map hp rfl, fun _ => rfl,
      fun q => sn.lineRefers q rfl⟩, ⟨hs.types, hs.fields, hs.values, hs.methods, hs.funcs, hs.args,
      fun q t ht => sn.ready (hs.templs q t ht)⟩⟩
  | @method p m s j hp he =>
    exact ⟨⟨sn, fun _ => rfl, fun _ => rfl, fun _ => rfl, fun _ => rfl, fun _ => rfl, fun _ => rfl,
      fun q => sn.lineRefers q rfl⟩, ⟨hs.types, hs.fields, hs.values,
      upd_forall (P := fun m : InterfaceMethod => m.signature.valid = true) hs.methods
        (gives_ensureAllTypesImported (hs.methods _ _ hp) _ _ _ he), hs.funcs, hs.args,
      fun q t ht => sn.ready (hs.templs q t ht)⟩⟩
  | @value p c t t' j hp ht he =>
    have hv := hs.values _ _ _ hp ht
    refine ⟨⟨sn, fun _ => rfl, fun _ => rfl, upd_map hp ?_, fun _ => rfl, fun _ => rfl, fun _ => rfl,
      fun q => sn.lineRefers q rfl⟩, ⟨hs.types, hs.fields, ?_, hs.methods, hs.funcs, hs.args,
      fun q t ht => sn.ready (hs.templs q t ht)⟩⟩
    · simp [ht, TypeRef.specOf]
    · intro q x t2 hq hx
      refine upd_forall (P := fun f => ∀ t, f.type = .name t → t.valid = true) (fun q x hq t ht => hs.values q x t hq ht)
        ?_ q x hq t2 hx
      intro t3 h3
      cases h3
      exact gives_ensureTypeImported hv _ _ _ he
  | @func p f s j hp he =>
    exact ⟨⟨sn, fun _ => rfl, fun _ => rfl, fun _ => rfl, upd_map hp rfl, fun _ => rfl, fun _ => rfl,
      fun q => sn.lineRefers q rfl⟩, ⟨hs.types, hs.fields, hs.values, hs.methods,
      upd_forall (P := fun m : FuncSpec => m.signature.valid = true) hs.funcs
        (gives_ensureAllTypesImported (hs.funcs _ _ hp) _ _ _ he), hs.args,
      fun q t ht => sn.ready (hs.templs q t ht)⟩⟩
  | @args p l l' o j hp he =>
    have hf := qualifyArgList_fine (hs.args _ _ hp) he
    refine ⟨⟨sn, fun _ => rfl, fun _ => rfl, fun _ => rfl, fun _ => rfl, fun _ => rfl, fun _ => rfl, fun q => ?_⟩,
      ⟨hs.types, hs.fields, hs.values, hs.methods, hs.funcs,
        upd_forall (P := fun l : List Arg => ∀ a ∈ l, a.TypesValid) hs.args hf.1,
        fun q t ht => sn.ready (hs.templs q t ht)⟩⟩
    by_cases hq : q = p
    · subst hq
      simp only [LineRefers, upd_same, sn.refers, hp, Option.some.injEq, exists_eq_left']
      exact hf.2
    · exact sn.lineRefers q (upd_ne _ _ hq)
  | @templ p t d j hp he =>
    exact ⟨⟨sn, fun _ => rfl, fun _ => rfl, fun _ => rfl, fun _ => rfl, fun _ => rfl, upd_map hp rfl,
      fun q => sn.lineRefers q rfl⟩, ⟨hs.types, hs.fields, hs.values, hs.methods, hs.funcs, hs.args,
      upd_forall (P := fun x : Templ => x.data.Ready { h with templs := upd h.templs p { t with data := d } }) (fun q t ht => sn.ready (hs.templs q t ht))
        (sn.ready (ready_qualifyTemplateData (hs.templs _ _ hp) he))⟩⟩

theorem QSteps.frame {h i h' i'} (a : QSteps h i h' i') (hs : h.Sound) : SameFrame h h' ∧ h'.Sound := by
  induction a with
  | refl => exact ⟨.refl _, hs⟩
  | step _ s ih => exact ⟨ih.1.trans (s.frame ih.2).1, (s.frame ih.2).2⟩

/-! ### What depends on that only -/

theorem map_some_iff {α β} {o o' : Option α} {g : α → β} (h : o'.map g = o.map g) {P : β → Prop} :
    (∃ x, o' = some x ∧ P (g x)) ↔ ∃ x, o = some x ∧ P (g x) := by
  cases o <;> cases o' <;> simp_all

theorem SameFrame.codeElem {h h' : Heap} (s : SameFrame h h') (e : CodeElem) : e.Usable h' ↔ e.Usable h := by
  cases e with
  | line f q => exact s.lines q
  | templ q =>
    have := map_some_iff (s.templs q) (P := fun _ => True)
    simpa [CodeElem.Usable] using this

theorem SameFrame.ifaceElem {h h' : Heap} (s : SameFrame h h') (e : IfaceElem) : e.There h' ↔ e.There h := by
  cases e with
  | embed p =>
    have := map_some_iff (s.embeds p) (P := fun _ => True)
    simpa [IfaceElem.There] using this
  | method p =>
    have := map_some_iff (s.methods p) (P := fun _ => True)
    simpa [IfaceElem.There] using this

/-- The spec ends within that many levels. -/
def EndsIn (h : Heap) : Nat → Ptr → Prop
  | 0, _ => False
  | n + 1, p => ∃ t, h.types p = some t ∧
    (∀ q ∈ t.structBody, ∃ f, h.fields q = some f ∧ ∀ r, f.type = .spec r → EndsIn h n r) ∧
    ∀ e ∈ t.interfaceBody, e.There h

/-- One field of it does. -/
def FieldEndsIn (h : Heap) (n : Nat) (q : Ptr) : Prop := ∃ f, h.fields q = some f ∧ ∀ r, f.type = .spec r → EndsIn h n r

theorem SameFrame.field_of {h h' : Heap} (s : SameFrame h h') {P P' : Ptr → Prop} (hP : ∀ r, P' r ↔ P r) (q : Ptr) :
    (∃ f, h'.fields q = some f ∧ ∀ r, f.type = .spec r → P' r) ↔ ∃ f, h.fields q = some f ∧ ∀ r, f.type = .spec r → P r := by
  have h1 := map_some_iff (s.fieldSpecs q) (P := fun o => ∀ r, o = some r → P r)
  simpa [specOf_eq, hP] using h1

theorem SameFrame.endsIn {h h' : Heap} (s : SameFrame h h') : ∀ (n : Nat) (p : Ptr), EndsIn h' n p ↔ EndsIn h n p
  | 0, _ => .rfl
  | n + 1, p => by
    have h1 := map_some_iff (s.bodies p) (P := fun o => (∀ q ∈ o.1, FieldEndsIn h n q) ∧ ∀ e ∈ o.2.1, e.There h)
    have h2 : ∀ q, FieldEndsIn h' n q ↔ FieldEndsIn h n q := s.field_of (s.endsIn n)
    simp only [EndsIn]
    refine Iff.trans ?_ h1
    refine exists_congr fun t => and_congr_right fun _ => ?_
    simp only [s.ifaceElem]
    exact and_congr_left fun _ => forall₂_congr fun q _ => h2 q

theorem SameFrame.fieldEndsIn {h h' : Heap} (s : SameFrame h h') (n : Nat) (q : Ptr) :
    FieldEndsIn h' n q ↔ FieldEndsIn h n q := s.field_of (s.endsIn n) q

/-! ### The pass -/

/-- The call returns. -/
def QM.Done {α} (x : QM α) (h : Heap) (i : Imports) : Prop := ∃ a h' i', x h i = (.ok a, h', i')

theorem done_ret {α} (a : α) (h : Heap) (i : Imports) : QM.Done (QM.ret a) h i := ⟨a, h, i, rfl⟩

theorem done_bind {α β} {x : QM α} {f : α → QM β} {h : Heap} {i : Imports} :
    QM.Done (QM.bind x f) h i ↔ ∃ a h' i', x h i = (.ok a, h', i') ∧ QM.Done (f a) h' i' := by
  constructor
  · rintro ⟨b, h', i', hb⟩
    unfold QM.bind at hb
    rcases hx : x h i with ⟨a | _ | _, h1, i1⟩ <;> rw [hx] at hb
    · exact ⟨a, h1, i1, rfl, _, _, _, hb⟩
    · simp at hb
    · simp at hb
  · rintro ⟨a, h1, i1, hx, b, h', i', hb⟩
    refine ⟨b, h', i', ?_⟩
    unfold QM.bind
    rw [hx]
    exact hb

theorem done_read {α β} {m : Heap → Ptr → Option α} {p : Ptr} {f : α → QM β} {h : Heap} {i : Imports} :
    QM.Done (QM.bind (QM.read m p) f) h i ↔ ∃ a, m h p = some a ∧ QM.Done (f a) h i := by
  rw [done_bind]
  constructor
  · rintro ⟨a, h', i', hx, hd⟩
    simp only [QM.read, Prod.mk.injEq] at hx
    obtain ⟨h1, rfl, rfl⟩ := hx
    exact ⟨a, deref_eq_ok h1, hd⟩
  · rintro ⟨a, ha, hd⟩
    exact ⟨a, h, i, by rw [QM.read, deref_some ha], hd⟩

theorem done_lift {α β} {x : Heap → IM α} {f : α → QM β} {h : Heap} {i : Imports} (hx : Returns (x h)) :
    QM.Done (QM.bind (QM.lift x) f) h i ↔ ∃ a i', x h i = (.ok a, i') ∧ QM.Done (f a) h i' := by
  rw [done_bind]
  obtain ⟨a, j, ha⟩ := hx i
  constructor
  · rintro ⟨b, h', i', hb, hd⟩
    simp only [QM.lift, ha, Prod.mk.injEq, Outcome.ok.injEq] at hb
    obtain ⟨rfl, rfl, rfl⟩ := hb
    exact ⟨_, _, ha, hd⟩
  · rintro ⟨b, i', hb, hd⟩
    exact ⟨b, h, i', by rw [QM.lift, hb], hd⟩

theorem done_modify {β} {g : Heap → Heap} {f : Unit → QM β} {h : Heap} {i : Imports} :
    QM.Done (QM.bind (QM.modify g) f) h i ↔ QM.Done (f ()) (g h) i := by
  rw [done_bind]
  constructor
  · rintro ⟨a, h', i', hx, hd⟩
    simp only [QM.modify, Prod.mk.injEq] at hx
    obtain ⟨-, rfl, rfl⟩ := hx
    exact hd
  · intro hd
    exact ⟨(), g h, i, rfl, hd⟩

/-- When a loop gets to its end. -/
theorem done_forEach {α} {f : α → QM Unit} {P : Heap → α → Prop} (hst : ∀ a, QM.Steps (f a))
    (hP : ∀ h h' a, SameFrame h h' → (P h' a ↔ P h a)) (hf : ∀ a h i, h.Sound → (QM.Done (f a) h i ↔ P h a)) :
    ∀ (l : List α) (h : Heap) (i : Imports), h.Sound → (QM.Done (QM.forEach f l) h i ↔ ∀ a ∈ l, P h a)
  | [], h, i, _ => ⟨fun _ => by simp, fun _ => done_ret _ _ _⟩
  | a :: l, h, i, hs => by
    rw [QM.forEach, done_bind, List.forall_mem_cons]
    constructor
    · rintro ⟨_, h', i', hx, hd⟩
      have hfr := hst a h i
      rw [hx] at hfr
      obtain ⟨h1, h2⟩ := hfr.frame hs
      refine ⟨(hf a h i hs).1 ⟨_, _, _, hx⟩, fun b hb => ?_⟩
      exact (hP _ _ b h1).1 ((done_forEach hst hP hf l h' i' h2).1 hd b hb)
    · rintro ⟨h1, h2⟩
      obtain ⟨_, h', i', hx⟩ := (hf a h i hs).2 h1
      have hfr := hst a h i
      rw [hx] at hfr
      obtain ⟨h3, h4⟩ := hfr.frame hs
      exact ⟨_, h', i', hx, (done_forEach hst hP hf l h' i' h4).2 fun b hb => (hP _ _ b h3).2 (h2 b hb)⟩

theorem done_codeElem (e : CodeElem) (h : Heap) (i : Imports) (hs : h.Sound) : QM.Done e.qualify h i ↔ e.Usable h := by
  cases e with
  | line f p =>
    simp only [QM.Done, CodeElem.qualify, CodeElem.Usable]
    cases hp : h.args p with
    | none => simp
    | some l =>
      have h1 := qualifyArgList_iff (h := h) (hs.args p l hp) i
      rcases hq : qualifyArgList h l i with ⟨o, l', j⟩
      rw [hq] at h1
      dsimp only
      simp only [Option.some.injEq, exists_eq_left']
      rw [← h1]
      constructor
      · rintro ⟨a, h', i', he⟩
        rw [hq] at he
        simp only [Prod.mk.injEq] at he
        exact ⟨l', j, by rw [he.1]⟩
      · rintro ⟨l2, j2, he⟩
        simp only [Prod.mk.injEq] at he
        exact ⟨(), _, _, by rw [hq, he.1]⟩
  | templ p =>
    rw [CodeElem.qualify, done_read]
    refine exists_congr fun t => ⟨fun h1 => h1.1, fun ht => ⟨ht, ?_⟩⟩
    have hr := returns_ready (hs.templs p t ht)
    rw [done_lift (x := fun h => qualifyTemplateData h t.data) hr]
    obtain ⟨d, j, hd⟩ := hr i
    exact ⟨d, j, hd, _, _, _, rfl⟩

theorem done_code (cb : CodeBlock) (h : Heap) (i : Imports) (hs : h.Sound) :
    QM.Done (qualifyCode cb) h i ↔ ∀ e ∈ cb, e.Usable h :=
  done_forEach (P := fun h e => CodeElem.Usable h e) steps_codeElem (fun _ _ e s => s.codeElem e) done_codeElem cb h i hs

theorem done_ifaceElem (e : IfaceElem) (h : Heap) (i : Imports) (hs : h.Sound) :
    QM.Done e.qualify h i ↔ e.There h := by
  cases e with
  | embed p =>
    rw [IfaceElem.qualify, done_read]
    refine exists_congr fun e => ⟨fun h1 => h1.1, fun he => ⟨he, ?_⟩⟩
    have hr : Returns e.qualify := .bind (returns_ensureImported _) fun _ => .pure _
    rw [done_lift (x := fun _ => e.qualify) hr]
    obtain ⟨r, j, hd⟩ := hr i
    exact ⟨r, j, hd, _, _, _, rfl⟩
  | method p =>
    rw [IfaceElem.qualify, done_read]
    refine exists_congr fun m => ⟨fun h1 => h1.1, fun hm => ⟨hm, ?_⟩⟩
    have hr : Returns m.qualify := .bind (returns_qualifySignature (hs.methods p m hm)) fun _ => .pure _
    rw [done_lift (x := fun _ => m.qualify) hr]
    obtain ⟨r, j, hd⟩ := hr i
    exact ⟨r, j, hd, _, _, _, rfl⟩

theorem done_field {n : Nat} {sub : Ptr → QM Unit} (hsub : ∀ r h i, h.Sound → (QM.Done (sub r) h i ↔ EndsIn h n r))
    (q : Ptr) (h : Heap) (i : Imports) (hs : h.Sound) : QM.Done (qualifyField sub q) h i ↔ FieldEndsIn h n q := by
  rw [qualifyField, done_read]
  refine exists_congr fun f => and_congr_right fun hf => ?_
  cases ht : f.type with
  | nil => exact ⟨fun _ => by simp, fun _ => done_ret _ _ _⟩
  | name t =>
    refine ⟨fun _ => by simp, fun _ => ?_⟩
    have hr := returns_ensureTypeImported (hs.fields q f t hf ht)
    dsimp only
    rw [done_lift (x := fun _ => ensureTypeImported t) hr]
    obtain ⟨r, j, hd⟩ := hr i
    exact ⟨r, j, hd, _, _, _, rfl⟩
  | spec r =>
    dsimp only
    rw [hsub r h i hs]
    simp

theorem done_spec : ∀ (n : Nat) (p : Ptr) (h : Heap) (i : Imports), h.Sound →
    (QM.Done (qualifySpec n p) h i ↔ EndsIn h n p)
  | 0, _, h, i, _ => by simp [QM.Done, qualifySpec, QM.hang, EndsIn]
  | n + 1, p, h, i, hs => by
    rw [qualifySpec, done_read, EndsIn]
    refine exists_congr fun t => and_congr_right fun ht => ?_
    have hr := returns_ensureTypeImported (hs.types p t ht)
    rw [done_lift (x := fun _ => ensureTypeImported t.underlying) hr]
    obtain ⟨u, j, hu⟩ := hr i
    simp only [hu, Prod.mk.injEq, Outcome.ok.injEq]
    obtain ⟨h1, h2⟩ := (QStep.type ht hu).frame hs
    generalize hg : ({ h with types := upd h.types p { t with underlying := u } } : Heap) = g at h1 h2
    have hst : ∀ q, QM.Steps (qualifyField (qualifySpec n) q) := steps_field (steps_spec n)
    have hfe := fun l (h : Heap) i hs => done_forEach (P := fun h q => FieldEndsIn h n q) hst
      (fun _ _ q s => s.fieldEndsIn n q) (done_field (done_spec n)) l h i hs
    have hie := fun l (h : Heap) i hs => done_forEach (P := fun h e => IfaceElem.There h e) steps_ifaceElem
      (fun _ _ q s => s.ifaceElem q) done_ifaceElem l h i hs
    have key : QM.Done (QM.bind (QM.forEach (qualifyField (qualifySpec n)) t.structBody) fun _ =>
        QM.forEach IfaceElem.qualify t.interfaceBody) g j ↔
        (∀ q ∈ t.structBody, FieldEndsIn h n q) ∧ ∀ e ∈ t.interfaceBody, e.There h := by
      rw [done_bind]
      constructor
      · rintro ⟨_, h', i', hx, hd⟩
        have hfr := QM.Steps.forEach hst t.structBody g j
        rw [hx] at hfr
        obtain ⟨h3, h4⟩ := hfr.frame h2
        exact ⟨fun q hq => (h1.fieldEndsIn n q).1 ((hfe _ g j h2).1 ⟨_, _, _, hx⟩ q hq),
          fun e he => (h1.ifaceElem e).1 ((h3.ifaceElem e).1 ((hie _ h' i' h4).1 hd e he))⟩
      · rintro ⟨h5, h6⟩
        obtain ⟨_, h', i', hx⟩ := (hfe _ g j h2).2 fun q hq => (h1.fieldEndsIn n q).2 (h5 q hq)
        have hfr := QM.Steps.forEach hst t.structBody g j
        rw [hx] at hfr
        obtain ⟨h3, h4⟩ := hfr.frame h2
        exact ⟨_, h', i', hx, (hie _ h' i' h4).2 fun e he => (h3.ifaceElem e).2 ((h1.ifaceElem e).2 (h6 e he))⟩
    refine Iff.trans ?_ key
    constructor
    · rintro ⟨a, i', ⟨rfl, rfl⟩, hd⟩
      rw [done_modify, hg] at hd
      exact hd
    · intro hd
      refine ⟨u, j, ⟨rfl, rfl⟩, ?_⟩
      rw [done_modify, hg]
      exact hd

/-- The type ends within that many levels. -/
def TypeRef.EndsIn (h : Heap) (n : Nat) (t : TypeRef) : Prop := ∀ r, t.specOf = some r → Gopoet.EndsIn h n r

theorem done_typeRef {n : Nat} {t : TypeRef} {h : Heap} (i : Imports) (hs : h.Sound)
    (ht : ∀ t', t = .name t' → t'.valid = true) : QM.Done (qualifyTypeRef n t) h i ↔ t.EndsIn h n := by
  cases t with
  | nil => exact ⟨fun _ => by simp [TypeRef.EndsIn, TypeRef.specOf], fun _ => done_ret _ _ _⟩
  | name t =>
    refine ⟨fun _ => by simp [TypeRef.EndsIn, TypeRef.specOf], fun _ => ?_⟩
    have hr := returns_ensureTypeImported (ht t rfl)
    rw [qualifyTypeRef, done_lift (x := fun _ => ensureTypeImported t) hr]
    obtain ⟨r, j, hd⟩ := hr i
    exact ⟨r, j, hd, _, _, _, rfl⟩
  | spec p =>
    rw [qualifyTypeRef, done_bind]
    simp only [TypeRef.EndsIn, TypeRef.specOf, Option.some.injEq, forall_eq']
    rw [← done_spec n p h i hs]
    exact ⟨fun ⟨a, h', i', hx, _⟩ => ⟨a, h', i', hx⟩, fun ⟨a, h', i', hx⟩ => ⟨a, h', i', hx, done_ret _ _ _⟩⟩

/-- `ValueUsable` with a bound. -/
def ValueIn (h : Heap) (n : Nat) (q : Ptr) : Prop :=
  ∃ c, h.values q = some c ∧ c.type.EndsIn h n ∧
    ∀ b, c.init = some b → ∃ cb, h.blocks b = some cb ∧ ∀ e ∈ cb, e.Usable h

theorem SameFrame.valueIn {h h' : Heap} (s : SameFrame h h') (n : Nat) (q : Ptr) : ValueIn h' n q ↔ ValueIn h n q := by
  have h1 := map_some_iff (s.valueSpecs q) (P := fun o => (∀ r, o.1 = some r → EndsIn h n r) ∧
    ∀ b, o.2 = some b → ∃ cb, h.blocks b = some cb ∧ ∀ e ∈ cb, e.Usable h)
  simp only [ValueIn, TypeRef.EndsIn, s.endsIn, s.codeElem, s.blocks]
  exact h1

theorem done_value (n : Nat) (q : Ptr) (h : Heap) (i : Imports) (hs : h.Sound) :
    QM.Done (qualifyValue n q) h i ↔ ValueIn h n q := by
  rw [qualifyValue, done_read, ValueIn]
  refine exists_congr fun c => and_congr_right fun hc => ?_
  rw [done_bind]
  have ht := done_typeRef (n := n) (t := c.type) i hs fun t' ht' => hs.values q c t' hc ht'
  -- the state after the type of the value was qualified
  have hmid : ∀ t h' i', qualifyTypeRef n c.type h i = (.ok t, h', i') →
      SameFrame h { h' with values := upd h'.values q { c with type := t } } ∧
      ({ h' with values := upd h'.values q { c with type := t } } : Heap).Sound := by
    intro t h' i' hq
    cases hct : c.type with
    | nil =>
      rw [hct] at hq
      simp only [qualifyTypeRef, QM.ret, Prod.mk.injEq, Outcome.ok.injEq] at hq
      obtain ⟨rfl, rfl, rfl⟩ := hq
      have : upd h.values q { c with type := .nil } = h.values := upd_eq_self (by rw [hc, ← hct])
      rw [this]
      exact ⟨.refl _, hs⟩
    | name t0 =>
      rw [hct, qualifyTypeRef] at hq
      obtain ⟨t1, i1, h1, h2⟩ := QM.bind_lift_eq_ok hq
      simp only [QM.ret, Prod.mk.injEq, Outcome.ok.injEq] at h2
      obtain ⟨rfl, rfl, rfl⟩ := h2
      exact (QStep.value hc hct h1).frame hs
    | spec r =>
      have hsp := specOnly_spec n r h i
      have hst := steps_spec n r h i
      rw [hct, qualifyTypeRef] at hq
      obtain ⟨_, h1, i1, h2, h3⟩ := QM.bind_eq_ok hq
      rw [h2] at hsp hst
      simp only [QM.ret, Prod.mk.injEq, Outcome.ok.injEq] at h3
      obtain ⟨rfl, rfl, rfl⟩ := h3
      have : upd h1.values q { c with type := .spec r } = h1.values := upd_eq_self (by rw [hsp.values, hc, ← hct])
      rw [this]
      exact hst.frame hs
  constructor
  · rintro ⟨t, h', i', hx, hd⟩
    refine ⟨ht.1 ⟨_, _, _, hx⟩, fun b hb => ?_⟩
    obtain ⟨h1, h2⟩ := hmid t h' i' hx
    rw [done_modify] at hd
    generalize ({ h' with values := upd h'.values q { c with type := t } } : Heap) = g at h1 h2 hd
    rw [hb] at hd
    dsimp only at hd
    rw [done_read] at hd
    obtain ⟨cb, hcb, hd⟩ := hd
    rw [h1.blocks] at hcb
    exact ⟨cb, hcb, fun e he => (h1.codeElem e).1 ((done_code cb _ _ h2).1 hd e he)⟩
  · rintro ⟨h1, h2⟩
    obtain ⟨t, h', i', hx⟩ := ht.2 h1
    obtain ⟨h3, h4⟩ := hmid t h' i' hx
    refine ⟨t, h', i', hx, ?_⟩
    rw [done_modify]
    generalize ({ h' with values := upd h'.values q { c with type := t } } : Heap) = g at h3 h4
    cases hci : c.init with
    | none => exact done_ret _ _ _
    | some b =>
      dsimp only
      obtain ⟨cb, hcb, hu⟩ := h2 b hci
      rw [done_read]
      exact ⟨cb, by rw [h3.blocks]; exact hcb, (done_code cb _ _ h4).2 fun e he => (h3.codeElem e).2 (hu e he)⟩

/-- The function can be qualified. -/
def FuncUsable (h : Heap) (p : Ptr) : Prop := ∃ f, h.funcs p = some f ∧ ∀ e ∈ f.code, e.Usable h

theorem done_func (p : Ptr) (h : Heap) (i : Imports) (hs : h.Sound) :
    QM.Done (qualifyFunc p) h i ↔ FuncUsable h p := by
  rw [qualifyFunc, done_read]
  refine exists_congr fun f => and_congr_right fun hf => ?_
  have hr := returns_ensureAllTypesImported (hs.funcs p f hf)
  rw [done_lift (x := fun _ => ensureAllTypesImported f.signature) hr]
  obtain ⟨sig, j, hj⟩ := hr i
  obtain ⟨h1, h2⟩ := (QStep.func hf hj).frame hs
  have key : QM.Done (qualifyCode f.code) { h with funcs := upd h.funcs p { f with signature := sig } } j ↔
      ∀ e ∈ f.code, e.Usable h := by
    rw [done_code _ _ _ h2]
    simp only [h1.codeElem]
  rw [← key]
  simp only [hj, Prod.mk.injEq, Outcome.ok.injEq]
  constructor
  · rintro ⟨a, i', ⟨rfl, rfl⟩, hd⟩
    exact done_modify.1 hd
  · intro hd
    exact ⟨sig, j, ⟨rfl, rfl⟩, done_modify.2 hd⟩

/-- `FileElem.Usable` with a bound. -/
def FileElem.UsableIn (h : Heap) (n : Nat) : FileElem → Prop
  | .values p => ∃ d, h.valueDecls p = some d ∧ ∀ q ∈ d.specs, ValueIn h n q
  | .types p => ∃ d, h.typeDecls p = some d ∧ ∀ q ∈ d.types, EndsIn h n q
  | .func p => FuncUsable h p

theorem SameFrame.usableIn {h h' : Heap} (s : SameFrame h h') (n : Nat) (e : FileElem) :
    e.UsableIn h' n ↔ e.UsableIn h n := by
  cases e with
  | values p => simp only [FileElem.UsableIn, s.valueDecls, s.valueIn]
  | types p => simp only [FileElem.UsableIn, s.typeDecls, s.endsIn]
  | func p =>
    have h1 := map_some_iff (s.codes p) (P := fun o => ∀ e ∈ o, CodeElem.Usable h e)
    simp only [FileElem.UsableIn, FuncUsable, s.codeElem]
    exact h1

theorem done_fileElem (n : Nat) (e : FileElem) (h : Heap) (i : Imports) (hs : h.Sound) :
    QM.Done (e.qualify n) h i ↔ e.UsableIn h n := by
  cases e with
  | values p =>
    rw [FileElem.qualify, done_read]
    exact exists_congr fun d => and_congr_right fun _ =>
      done_forEach (P := fun h q => ValueIn h n q) (steps_value n) (fun _ _ q s => s.valueIn n q) (done_value n) _ h i hs
  | types p =>
    rw [FileElem.qualify, done_read]
    exact exists_congr fun d => and_congr_right fun _ =>
      done_forEach (P := fun h q => EndsIn h n q) (steps_spec n) (fun _ _ q s => s.endsIn n q) (done_spec n) _ h i hs
  | func p => exact done_func p h i hs

theorem done_fileElems (n : Nat) (es : List FileElem) (h : Heap) (i : Imports) (hs : h.Sound) :
    QM.Done (QM.forEach (FileElem.qualify n) es) h i ↔ ∀ e ∈ es, e.UsableIn h n :=
  done_forEach (P := fun h e => FileElem.UsableIn h n e) (steps_fileElem n) (fun _ _ e s => s.usableIn n e)
    (done_fileElem n) es h i hs

/-! ### Bounds -/

theorem EndsIn.mono {h : Heap} : ∀ {n m : Nat} {p : Ptr}, n ≤ m → EndsIn h n p → EndsIn h m p
  | 0, _, _, _, hp => hp.elim
  | n + 1, 0, _, hnm, _ => absurd hnm (by omega)
  | n + 1, m + 1, p, hnm, ⟨t, h1, h2, h3⟩ =>
    ⟨t, h1, fun q hq => let ⟨f, h4, h5⟩ := h2 q hq
      ⟨f, h4, fun r hr => EndsIn.mono (Nat.le_of_succ_le_succ hnm) (h5 r hr)⟩, h3⟩

/-- A common bound for the members of a list. -/
theorem common_bound {α} {P : Nat → α → Prop} (hm : ∀ n m a, n ≤ m → P n a → P m a) :
    ∀ l : List α, (∀ a ∈ l, ∃ n, P n a) → ∃ n, ∀ a ∈ l, P n a
  | [], _ => ⟨0, by simp⟩
  | a :: l, hl => by
    obtain ⟨n, hn⟩ := hl a (by simp)
    obtain ⟨m, hm'⟩ := common_bound hm l fun b hb => hl b (List.mem_cons_of_mem _ hb)
    refine ⟨max n m, fun b hb => ?_⟩
    rcases List.mem_cons.1 hb with rfl | hb
    · exact hm _ _ _ (Nat.le_max_left _ _) hn
    · exact hm _ _ _ (Nat.le_max_right _ _) (hm' b hb)

theorem specEnds_of_endsIn {h : Heap} : ∀ {n : Nat} {p : Ptr}, EndsIn h n p → SpecEnds h p
  | 0, _, hp => hp.elim
  | n + 1, p, ⟨t, h1, h2, h3⟩ => by
    refine .intro h1 (fun q hq => let ⟨f, h4, _⟩ := h2 q hq; ⟨f, h4⟩) (fun q hq f r hf hr => ?_) h3
    obtain ⟨f', h4, h5⟩ := h2 q hq
    rw [h4] at hf
    obtain rfl := Option.some.inj hf
    exact specEnds_of_endsIn (h5 r hr)

theorem specEnds_iff {h : Heap} {p : Ptr} : SpecEnds h p ↔ ∃ n, EndsIn h n p := by
  refine ⟨fun hp => ?_, fun ⟨n, hn⟩ => specEnds_of_endsIn hn⟩
  induction hp with
  | @intro p t h1 h2 _ h4 ih =>
    obtain ⟨n, hn⟩ := common_bound (P := fun n q => FieldEndsIn h n q)
      (fun _ _ _ hnm ⟨f, hf, hr⟩ => ⟨f, hf, fun r hr' => (hr r hr').mono hnm⟩) t.structBody fun q hq => by
        obtain ⟨f, hf⟩ := h2 q hq
        cases ht : f.type with
        | nil => exact ⟨0, f, hf, by simp [ht]⟩
        | name t => exact ⟨0, f, hf, by simp [ht]⟩
        | spec r =>
          obtain ⟨n, hn⟩ := ih q hq f r hf ht
          exact ⟨n, f, hf, fun r' hr' => by rw [ht] at hr'; cases hr'; exact hn⟩
    exact ⟨n + 1, t, h1, hn, h4⟩

theorem typeRef_ends_iff {h : Heap} {t : TypeRef} : t.Ends h ↔ ∃ n, t.EndsIn h n := by
  cases t with
  | spec p => simpa [TypeRef.Ends, TypeRef.EndsIn, TypeRef.specOf] using specEnds_iff
  | _ => simp [TypeRef.Ends, TypeRef.EndsIn, TypeRef.specOf]

theorem TypeRef.EndsIn.mono {h : Heap} {n m : Nat} {t : TypeRef} (hnm : n ≤ m) (ht : t.EndsIn h n) : t.EndsIn h m :=
  fun r hr => (ht r hr).mono hnm

theorem ValueIn.mono {h : Heap} {n m : Nat} {q : Ptr} (hnm : n ≤ m) : ValueIn h n q → ValueIn h m q :=
  fun ⟨c, h1, h2, h3⟩ => ⟨c, h1, h2.mono hnm, h3⟩

theorem valueUsable_iff {h : Heap} {q : Ptr} : ValueUsable h q ↔ ∃ n, ValueIn h n q := by
  simp only [ValueUsable, ValueIn, typeRef_ends_iff]
  constructor
  · rintro ⟨c, h1, ⟨n, hn⟩, h3⟩
    exact ⟨n, c, h1, hn, h3⟩
  · rintro ⟨n, c, h1, hn, h3⟩
    exact ⟨c, h1, ⟨n, hn⟩, h3⟩

theorem FileElem.UsableIn.mono {h : Heap} {n m : Nat} {e : FileElem} (hnm : n ≤ m) (he : e.UsableIn h n) :
    e.UsableIn h m := by
  cases e with
  | values p => obtain ⟨d, h1, h2⟩ := he; exact ⟨d, h1, fun q hq => (h2 q hq).mono hnm⟩
  | types p => obtain ⟨d, h1, h2⟩ := he; exact ⟨d, h1, fun q hq => (h2 q hq).mono hnm⟩
  | func p => exact he

theorem usable_iff {h : Heap} {e : FileElem} : e.Usable h ↔ ∃ n, e.UsableIn h n := by
  cases e with
  | values p =>
    simp only [FileElem.Usable, FileElem.UsableIn, valueUsable_iff]
    constructor
    · rintro ⟨d, h1, h2⟩
      obtain ⟨n, hn⟩ := common_bound (P := fun n q => ValueIn h n q) (fun _ _ _ hnm hv => hv.mono hnm) d.specs h2
      exact ⟨n, d, h1, hn⟩
    · rintro ⟨n, d, h1, hn⟩
      exact ⟨d, h1, fun q hq => ⟨n, hn q hq⟩⟩
  | types p =>
    simp only [FileElem.Usable, FileElem.UsableIn, specEnds_iff]
    constructor
    · rintro ⟨d, h1, h2⟩
      obtain ⟨n, hn⟩ := common_bound (P := fun n q => EndsIn h n q) (fun _ _ _ hnm hv => hv.mono hnm) d.types h2
      exact ⟨n, d, h1, hn⟩
    · rintro ⟨n, d, h1, hn⟩
      exact ⟨d, h1, fun q hq => ⟨n, hn q hq⟩⟩
  | func p => simp [FileElem.Usable, FileElem.UsableIn, FuncUsable]

end Gopoet
