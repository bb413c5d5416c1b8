import Verif.Proof.KnownLemmas
import Verif.Proof.TwinLemmas
/-! Two runs of the qualification pass that end with the same names for the same packages. -/

namespace Gopoet
open Imports

/-- The two have the same names for the packages that are in both. -/
structure Agree (i j : Imports) : Prop where
  own : i.pkgPath = j.pkgPath
  names : ∀ p d d', i.importsByPath.get p = some d → j.importsByPath.get p = some d' → d.packageName = d'.packageName

theorem Agree.symm {i j : Imports} (h : Agree i j) : Agree j i :=
  ⟨h.own.symm, fun p d d' h1 h2 => (h.names p d' d h2 h1).symm⟩

theorem Agree.before {i j i' j' : Imports} (h : Agree i' j') (hi : Ext i i') (hj : Ext j j') : Agree i j :=
  ⟨hi.own.symm.trans (h.own.trans hj.own), fun p d d' h1 h2 => h.names p d d' (hi.keeps _ _ h1) (hj.keeps _ _ h2)⟩

/-- `x` gives the same result whenever it ends with the same names. -/
structure IM.Synced {α : Type} (x : IM α) : Prop where
  ext : ∀ i, Ext i (x i).2
  same : ∀ i j, Agree (x i).2 (x j).2 → (x j).1 = (x i).1

namespace IM.Synced
variable {α β : Type}

theorem pure (a : α) : IM.Synced (pure a : IM α) := ⟨fun _ => .refl _, fun _ _ _ => rfl⟩
theorem panic : IM.Synced (IM.panic : IM α) := ⟨fun _ => .refl _, fun _ _ _ => rfl⟩
theorem lift (o : Outcome α) : IM.Synced (IM.lift o) := ⟨fun _ => .refl _, fun _ _ _ => rfl⟩

theorem ite {c : Prop} [Decidable c] {x y : IM α} (hx : IM.Synced x) (hy : IM.Synced y) :
    IM.Synced (if c then x else y) := by split <;> assumption

theorem bind {x : IM α} {f : α → IM β} (hx : IM.Synced x) (hf : ∀ a, IM.Synced (f a)) : IM.Synced (x >>= f) := by
  have ext : ∀ i, Ext (x i).2 ((x >>= f) i).2 := by
    intro i
    simp only [IM.bind_apply]
    rcases he : x i with ⟨a | _ | _, i'⟩
    · exact (hf a).ext i'
    · exact .refl _
    · exact .refl _
  refine ⟨fun i => (hx.ext i).trans (ext i), fun i j h => ?_⟩
  have h1 := hx.same i j (h.before (ext i) (ext j))
  simp only [IM.bind_apply] at h ⊢
  rcases he : x i with ⟨_ | _ | _, i'⟩ <;> rcases he1 : x j with ⟨_ | _ | _, j'⟩ <;>
    rw [he, he1] at h1 h <;> simp only [Outcome.ok.injEq, reduceCtorEq] at h1
  · subst h1
    exact (hf _).same _ _ h

end IM.Synced

theorem synced_prefixForPackage (p n : GoString) : IM.Synced (prefixForPackage p n true) := by
  have after : ∀ i, Ext i (prefixForPackage p n true i).2 ∧ (p = i.pkgPath ∧ prefixForPackage p n true i = (.ok [], i) ∨
      p ≠ i.pkgPath ∧ ∃ d, (prefixForPackage p n true i).2.importsByPath.get p = some d ∧
        (prefixForPackage p n true i).1 = .ok (d.packageName ++ b! ".")) := by
    intro i
    refine ⟨(runs_prefixForPackage p n true i).ext, ?_⟩
    by_cases ho : p = i.pkgPath
    · exact .inl ⟨ho, prefixForPackage_own ho⟩
    · refine .inr ⟨ho, ?_⟩
      cases hg : i.importsByPath.get p with
      | some d => rw [prefixForPackage_known ho hg]; exact ⟨d, hg, rfl⟩
      | none =>
        obtain ⟨q, -, hq⟩ := prefixForPackage_new (n := n) ho hg
        rw [hq]
        exact ⟨_, by simp only [Imports.add, GoMap.get_set, if_true]; rfl, rfl⟩
  refine ⟨fun i => (after i).1, fun i j h => ?_⟩
  obtain ⟨e1, h1⟩ := after i
  obtain ⟨e2, h2⟩ := after j
  have ho : i.pkgPath = j.pkgPath := e1.own.symm.trans (h.own.trans e2.own)
  rcases h1 with ⟨h1, h3⟩ | ⟨h1, d, h3, h4⟩ <;> rcases h2 with ⟨h2, h5⟩ | ⟨h2, d', h5, h6⟩
  · rw [h3, h5]
  · exact absurd (h1.trans ho) h2
  · exact absurd (h2.trans ho.symm) h1
  · rw [h4, h6, h.names p d d' h3 h5]

theorem synced_registerPackage (p : Package) : IM.Synced (registerPackage p) :=
  .bind (synced_prefixForPackage _ _) fun _ => .pure _

theorem synced_qualify (s : Symbol) : IM.Synced (qualify s true) := by
  unfold qualify
  exact .ite (.pure _) (.bind (synced_prefixForPackage _ _) fun _ => .ite (.pure _) (.pure _))

theorem synced_qualifySymbols : ∀ l, IM.Synced (qualifySymbols true l)
  | [] => .pure _
  | s :: l => by
    rw [qualifySymbols]
    exact .bind (synced_qualify s) fun _ => .bind (synced_qualifySymbols l) fun _ => .pure _

mutual
theorem synced_qualifyType : ∀ t, IM.Synced (qualifyType true t)
  | .nil => by rw [qualifyType]; exact .panic
  | .basic k => by rw [qualifyType]; exact .pure _
  | .named s => by
    rw [qualifyType]
    exact .bind (synced_qualify s) fun _ => .ite (.pure _) (.pure _)
  | .ptr e => by
    rw [qualifyType]
    exact .bind (synced_qualifyType e) fun _ => .ite (.bind (.lift _) fun _ => .pure _) (.pure _)
  | .slice e => by
    rw [qualifyType]
    exact .bind (synced_qualifyType e) fun _ => .ite (.bind (.lift _) fun _ => .pure _) (.pure _)
  | .array e n => by
    rw [qualifyType]
    exact .bind (synced_qualifyType e) fun _ => .ite (.bind (.lift _) fun _ => .pure _) (.pure _)
  | .map e k => by
    rw [qualifyType]
    exact .bind (synced_qualifyType k) fun _ => .bind (synced_qualifyType e) fun _ =>
      .ite (.bind (.lift _) fun _ => .pure _) (.pure _)
  | .chan e d => by
    rw [qualifyType]
    exact .bind (synced_qualifyType e) fun _ => .ite (.bind (.lift _) fun _ => .pure _) (.pure _)
  | .func s => by
    rw [qualifyType]
    exact .bind (synced_qualifySignature s) fun _ => .ite (.bind (.lift _) fun _ => .pure _) (.pure _)
  | .struct fs => by
    rw [qualifyType]
    exact .bind (synced_qualifyFields fs) fun _ => .ite (.pure _) (.pure _)
  | .interface ms es => by
    rw [qualifyType]
    exact .bind (synced_qualifySymbols es) fun _ => .bind (synced_qualifyMethods ms) fun _ =>
      .ite (.pure _) (.pure _)
theorem synced_qualifySignature : ∀ s : Signature, IM.Synced (qualifySignature true s)
  | ⟨args, results, v⟩ => by
    rw [qualifySignature]
    exact .bind (synced_qualifyArgs args) fun _ => .bind (synced_qualifyArgs results) fun _ =>
      .ite (.pure _) (.pure _)
theorem synced_qualifyArgs : ∀ l, IM.Synced (qualifyArgs true l)
  | [] => by rw [qualifyArgs]; exact .pure _
  | ⟨n, t⟩ :: l => by
    rw [qualifyArgs]
    exact .bind (synced_qualifyType t) fun _ => .bind (synced_qualifyArgs l) fun _ => .pure _
theorem synced_qualifyFields : ∀ l, IM.Synced (qualifyFields true l)
  | [] => by rw [qualifyFields]; exact .pure _
  | ⟨n, t, g⟩ :: l => by
    rw [qualifyFields]
    exact .bind (synced_qualifyType t) fun _ => .bind (synced_qualifyFields l) fun _ => .pure _
theorem synced_qualifyMethods : ∀ l, IM.Synced (qualifyMethods true l)
  | [] => by rw [qualifyMethods]; exact .pure _
  | ⟨n, s⟩ :: l => by
    rw [qualifyMethods]
    exact .bind (synced_qualifySignature s) fun _ => .bind (synced_qualifyMethods l) fun _ => .pure _
end

theorem synced_ensureImported (s : Symbol) : IM.Synced (ensureImported s) := synced_qualify s
theorem synced_ensureTypeImported (t : TypeName) : IM.Synced (ensureTypeImported t) :=
  .bind (synced_qualifyType t) fun _ => .pure _
theorem synced_ensureAllTypesImported (s : Signature) : IM.Synced (ensureAllTypesImported s) :=
  .bind (synced_qualifySignature s) fun _ => .pure _

theorem synced_qualifySymOrRef (o : Arg) (s : SymbolOrMethodRef) : IM.Synced (qualifySymOrRef o s) := by
  cases s with
  | symbol s => exact .bind (synced_ensureImported s) fun _ => .pure _
  | method m => exact .bind (synced_ensureImported m.type) fun _ => .ite (.pure _) (.pure _)

theorem synced_qualifyArg (h : Heap) (a : Arg) : IM.Synced (qualifyArg h a) := by
  cases a <;> simp only [qualifyArg]
  case package a => exact .bind (synced_registerPackage a) fun _ => .ite (.pure _) (.pure _)
  case packagePtr a => exact .bind (synced_registerPackage a) fun _ => .ite (.pure _) (.pure _)
  case symbol s => exact .bind (synced_ensureImported s) fun _ => .pure _
  case symbolPtr s => exact .bind (synced_ensureImported s) fun _ => .pure _
  case mref m => exact synced_qualifySymOrRef _ _
  case mrefPtr m => exact synced_qualifySymOrRef _ _
  case sig s => exact .bind (synced_ensureAllTypesImported s) fun _ => .pure _
  case sigPtr s => exact .bind (synced_ensureAllTypesImported s) fun _ => .pure _
  case typeName t => exact .bind (synced_ensureTypeImported t) fun _ => .pure _
  case value p => exact .bind (.lift _) fun _ => synced_qualifySymOrRef _ _
  case typeSpec p => exact .bind (.lift _) fun _ => synced_qualifySymOrRef _ _
  case ifaceMethod p => exact .bind (.lift _) fun _ => synced_qualifySymOrRef _ _
  case func p => exact .bind (.lift _) fun _ => synced_qualifySymOrRef _ _
  case reflectType t _ => exact .bind (.lift _) fun _ => .bind (synced_ensureTypeImported _) fun _ => .pure _
  case goType t _ => exact .bind (.lift _) fun _ => .bind (synced_ensureTypeImported _) fun _ => .pure _
  case goObject o _ => exact .bind (.lift _) fun _ => synced_qualifySymOrRef _ _
  case goPackage g _ => exact .bind (.lift _) fun _ => .bind (synced_registerPackage _) fun _ => .pure _
  all_goals exact .pure _

theorem synced_qualifyArgList (h : Heap) : ∀ (l : List Arg), (∀ i, Ext i (qualifyArgList h l i).2.2) ∧
    ∀ i j, Agree (qualifyArgList h l i).2.2 (qualifyArgList h l j).2.2 →
      (qualifyArgList h l j).1 = (qualifyArgList h l i).1 ∧ (qualifyArgList h l j).2.1 = (qualifyArgList h l i).2.1
  | [] => ⟨fun _ => .refl _, fun _ _ _ => ⟨rfl, rfl⟩⟩
  | a :: l => by
    obtain ⟨ext, ih⟩ := synced_qualifyArgList h l
    obtain ⟨ext1, same⟩ := synced_qualifyArg h a
    have ext2 : ∀ i, Ext (qualifyArg h a i).2 (qualifyArgList h (a :: l) i).2.2 := by
      intro i
      simp only [qualifyArgList]
      rcases he : qualifyArg h a i with ⟨_ | _ | _, i'⟩
      · exact ext i'
      · exact .refl _
      · exact .refl _
    refine ⟨fun i => (ext1 i).trans (ext2 i), fun i j hs => ?_⟩
    have h1 := same i j (hs.before (ext2 i) (ext2 j))
    simp only [qualifyArgList] at hs ⊢
    rcases he : qualifyArg h a i with ⟨_ | _ | _, i'⟩ <;> rcases he1 : qualifyArg h a j with ⟨_ | _ | _, j'⟩ <;>
      rw [he, he1] at h1 hs <;> simp only [Outcome.ok.injEq, reduceCtorEq] at h1
    · subst h1
      obtain ⟨h3, h4⟩ := ih _ _ hs
      exact ⟨h3, by simp only [h4]⟩
    · exact ⟨rfl, rfl⟩
    · exact ⟨rfl, rfl⟩

/-! ### Template data -/

theorem synced_embedQualify (e : InterfaceEmbed) : IM.Synced e.qualify :=
  .bind (synced_ensureImported _) fun _ => .pure _

theorem synced_methodQualify (m : InterfaceMethod) : IM.Synced m.qualify :=
  .bind (synced_qualifySignature _) fun _ => .pure _

theorem synced_qualifySpecIn (r : SpecRef) (o : TVal) (p : Package) : IM.Synced (qualifySpecIn r o p) :=
  .bind (synced_registerPackage _) fun _ => .ite (.pure _) (.pure _)

theorem synced_qualifyConverted (acc : Accepts) (o : TVal) (t : Outcome TypeName) : IM.Synced (qualifyConverted acc o t) :=
  .bind (.lift _) fun _ => .bind (synced_qualifyType _) fun _ => .ite (.pure _) (.pure _)

theorem synced_qualifyObject (acc : Accepts) (o : TVal) (s : SymbolOrMethodRef) : IM.Synced (qualifyObject acc o s) := by
  cases s <;> exact .bind (synced_ensureImported _) fun _ => .ite (.pure _) (.pure _)

mutual
theorem synced_qualifyData (h : Heap) (addr : Bool) : ∀ v, IM.Synced (qualifyData h addr v)
  | .iface acc v => by
    cases v
    case typeName | reflectType | goType =>
      simp only [qualifyData]
      exact synced_qualifyConverted _ _ _
    case goObject =>
      simp only [qualifyData]
      exact .bind (.lift _) fun s => synced_qualifyObject _ _ _
    case goPackage =>
      simp only [qualifyData]
      exact .bind (.lift _) fun t => .bind (synced_registerPackage _) fun _ => .ite (.pure _) (.pure _)
    all_goals
      rw [qualifyData]
      all_goals first
        | exact .bind (synced_qualifyData h false _) fun _ => .pure _
        | (intros; simp_all)
  | .package p => by
    rw [qualifyData]
    exact .bind (synced_registerPackage _) fun _ => .ite (.pure _) (.pure _)
  | .symbol s => by rw [qualifyData]; exact .bind (synced_ensureImported _) fun _ => .pure _
  | .mref m => by rw [qualifyData]; exact .bind (synced_ensureImported _) fun _ => .pure _
  | .signature s => by rw [qualifyData]; exact .bind (synced_qualifySignature _) fun _ => .pure _
  | .spec r => by
    rw [qualifyData]
    refine .bind (.lift _) fun a => ?_
    cases a with
    | none => exact .pure _
    | some f => exact .bind (.lift _) fun f => synced_qualifySpecIn _ _ _
  | .specCopy r pkg => by rw [qualifyData]; exact synced_qualifySpecIn _ _ _
  | .embed e => by rw [qualifyData]; exact .bind (synced_embedQualify _) fun _ => .pure _
  | .method e => by rw [qualifyData]; exact .bind (synced_methodQualify _) fun _ => .pure _
  | .ptr v => by rw [qualifyData]; exact .bind (synced_qualifyData h true v) fun _ => .pure _
  | .struct fs => by rw [qualifyData]; exact .bind (synced_qualifyDataFields h addr false false fs) fun _ => .pure _
  | .array vs => by rw [qualifyData]; exact .bind (synced_qualifyDataElems h addr addr false vs) fun _ => .pure _
  | .slice vs => by rw [qualifyData]; exact .bind (synced_qualifyDataElems h true true false vs) fun _ => .pure _
  | .map es => by rw [qualifyData]; exact .bind (synced_qualifyDataEntries h es) fun _ => .ite (.pure _) (.pure _)
  | .scalar _ => by rw [qualifyData] <;> first | exact .pure _ | (intros; simp_all)
  | .imports => by rw [qualifyData] <;> first | exact .pure _ | (intros; simp_all)
  | .typeName _ => by rw [qualifyData] <;> first | exact .pure _ | (intros; simp_all)
  | .reflectType _ => by rw [qualifyData] <;> first | exact .pure _ | (intros; simp_all)
  | .goType _ => by rw [qualifyData] <;> first | exact .pure _ | (intros; simp_all)
  | .goObject _ => by rw [qualifyData] <;> first | exact .pure _ | (intros; simp_all)
  | .goPackage _ => by rw [qualifyData] <;> first | exact .pure _ | (intros; simp_all)
theorem synced_qualifyDataFields (h : Heap) (addr : Bool) : ∀ c hid fs, IM.Synced (qualifyDataFields h addr c hid fs)
  | _, _, [] => by rw [qualifyDataFields]; exact .pure _
  | _, _, (_, v) :: fs => by
    rw [qualifyDataFields]
    exact .ite .panic (.bind (synced_qualifyData h addr v) fun _ =>
      .ite .panic (.bind (synced_qualifyDataFields h addr _ _ fs) fun _ => .pure _))
theorem synced_qualifyDataElems (h : Heap) (addr s : Bool) : ∀ c vs, IM.Synced (qualifyDataElems h addr s c vs)
  | _, [] => by rw [qualifyDataElems]; exact .pure _
  | _, v :: vs => by
    rw [qualifyDataElems]
    exact .bind (synced_qualifyData h addr v) fun _ =>
      .ite .panic (.bind (synced_qualifyDataElems h addr s _ vs) fun _ => .pure _)
theorem synced_qualifyDataEntries (h : Heap) : ∀ es, IM.Synced (qualifyDataEntries h es)
  | [] => by rw [qualifyDataEntries]; exact .pure _
  | (k, v) :: es => by
    rw [qualifyDataEntries]
    exact .bind (synced_qualifyData h false k) fun _ => .bind (synced_qualifyData h false v) fun _ =>
      .ite .panic (.bind (synced_qualifyDataEntries h es) fun _ => .pure _)
end

theorem synced_qualifyTemplateData (h : Heap) (d : TVal) : IM.Synced (qualifyTemplateData h d) := by
  refine .bind (synced_qualifyData h true _) fun r => ?_
  obtain ⟨r, c⟩ := r
  cases r <;> exact .pure _

/-! ### Specs -/

/-- `x` gives the same result and the same heap whenever it ends with the same names. -/
structure QM.Synced {α : Type} (x : QM α) : Prop where
  ext : ∀ h i, Ext i (x h i).2.2
  same : ∀ h i j, Agree (x h i).2.2 (x h j).2.2 → (x h j).1 = (x h i).1 ∧ (x h j).2.1 = (x h i).2.1

namespace QM.Synced
variable {α β : Type}

theorem ret (a : α) : QM.Synced (QM.ret a) := ⟨fun _ _ => .refl _, fun _ _ _ _ => ⟨rfl, rfl⟩⟩
theorem hang : QM.Synced (QM.hang : QM α) := ⟨fun _ _ => .refl _, fun _ _ _ _ => ⟨rfl, rfl⟩⟩
theorem modify (f : Heap → Heap) : QM.Synced (QM.modify f) := ⟨fun _ _ => .refl _, fun _ _ _ _ => ⟨rfl, rfl⟩⟩

theorem read {γ : Type} (m : Heap → Ptr → Option γ) (p : Ptr) : QM.Synced (QM.read m p) := by
  refine ⟨fun h i => ?_, fun h i j _ => ?_⟩
  · exact .refl _
  · exact ⟨rfl, rfl⟩

theorem lift {x : Heap → IM α} (hx : ∀ h, IM.Synced (x h)) : QM.Synced (QM.lift x) := by
  refine ⟨fun h i => ?_, fun h i j hs => ?_⟩
  · exact (hx h).ext i
  · exact ⟨(hx h).same i j hs, rfl⟩

theorem bind {x : QM α} {f : α → QM β} (hx : QM.Synced x) (hf : ∀ a, QM.Synced (f a)) : QM.Synced (QM.bind x f) := by
  have ext : ∀ h i, Ext (x h i).2.2 (QM.bind x f h i).2.2 := by
    intro h i
    unfold QM.bind
    rcases he : x h i with ⟨a | _ | _, h', i'⟩
    · exact (hf a).ext h' i'
    · exact .refl _
    · exact .refl _
  refine ⟨fun h i => (hx.ext h i).trans (ext h i), fun h i j hs => ?_⟩
  obtain ⟨h1, h2⟩ := hx.same h i j (hs.before (ext h i) (ext h j))
  unfold QM.bind at hs ⊢
  rcases he : x h i with ⟨_ | _ | _, h', i'⟩ <;> rcases he1 : x h j with ⟨_ | _ | _, h'', j'⟩ <;>
    rw [he, he1] at h1 h2 hs <;> simp only [Outcome.ok.injEq, reduceCtorEq] at h1 <;> dsimp only at h2 <;> subst h2
  · subst h1
    exact (hf _).same _ _ _ hs
  all_goals exact ⟨rfl, rfl⟩

theorem forEach {f : α → QM Unit} (hf : ∀ a, QM.Synced (f a)) : ∀ l, QM.Synced (QM.forEach f l)
  | [] => .ret _
  | a :: l => .bind (hf a) fun _ => .forEach hf l

end QM.Synced

theorem synced_codeElem (x : CodeElem) : QM.Synced x.qualify := by
  cases x with
  | line format p =>
    refine ⟨fun h i => ?_, fun h i j hs => ?_⟩
    · simp only [CodeElem.qualify]
      cases h.args p with
      | none => exact .refl _
      | some l => exact (synced_qualifyArgList h l).1 i
    · simp only [CodeElem.qualify] at hs ⊢
      cases hp : h.args p with
      | none => exact ⟨rfl, rfl⟩
      | some l =>
        rw [hp] at hs
        obtain ⟨h1, h2⟩ := (synced_qualifyArgList h l).2 i j hs
        simp only [h1, h2, and_self]
  | templ p => exact .bind (.read _ _) fun t => .bind (.lift fun h => synced_qualifyTemplateData h _) fun d => .modify _

theorem synced_code (cb : CodeBlock) : QM.Synced (qualifyCode cb) := .forEach synced_codeElem cb

theorem synced_ifaceElem (e : IfaceElem) : QM.Synced e.qualify := by
  cases e with
  | embed p => exact .bind (.read _ _) fun t => .bind (.lift fun _ => synced_embedQualify _) fun _ => .modify _
  | method p => exact .bind (.read _ _) fun t => .bind (.lift fun _ => synced_methodQualify _) fun _ => .modify _

theorem synced_spec : ∀ (fuel : Nat) (p : Ptr), QM.Synced (qualifySpec fuel p)
  | 0, _ => .hang
  | fuel + 1, p => by
    rw [qualifySpec]
    refine .bind (.read _ _) fun ts => .bind (.lift fun _ => synced_ensureTypeImported _) fun u => .bind (.modify _) fun _ =>
      .bind (.forEach (fun q => ?_) _) fun _ => .forEach synced_ifaceElem _
    rw [qualifyField]
    refine .bind (.read _ _) fun f => ?_
    cases f.type with
    | nil => exact .ret _
    | name t => exact .bind (.lift fun _ => synced_ensureTypeImported _) fun _ => .modify _
    | spec r => exact synced_spec fuel r

theorem synced_value (fuel : Nat) (p : Ptr) : QM.Synced (qualifyValue fuel p) := by
  rw [qualifyValue]
  refine .bind (.read _ _) fun c => .bind ?_ fun t => .bind (.modify _) fun _ => ?_
  · cases c.type with
    | nil => exact .ret _
    | name t => exact .bind (.lift fun _ => synced_ensureTypeImported _) fun _ => .ret _
    | spec r => exact .bind (synced_spec _ _) fun _ => .ret _
  · cases c.init with
    | none => exact .ret _
    | some b => exact .bind (.read _ _) fun cb => synced_code cb

theorem synced_func (p : Ptr) : QM.Synced (qualifyFunc p) :=
  .bind (.read _ _) fun _ => .bind (.lift fun _ => synced_ensureAllTypesImported _) fun _ => .bind (.modify _) fun _ => synced_code _

theorem synced_fileElem (fuel : Nat) (e : FileElem) : QM.Synced (e.qualify fuel) := by
  cases e with
  | values p => exact .bind (.read _ _) fun _ => .forEach (synced_value fuel) _
  | types p => exact .bind (.read _ _) fun _ => .forEach (synced_spec fuel) _
  | func p => exact synced_func p

theorem synced_fileElems (fuel : Nat) (es : List FileElem) : QM.Synced (QM.forEach (FileElem.qualify fuel) es) :=
  .forEach (synced_fileElem fuel) es

end Gopoet
