import Verif.Proof.TwinHeap
/-! Two runs of the qualification pass on heaps that differ in the order of entries of Imports only. -/

namespace Gopoet
open Imports

/-! ### Template data -/

theorem alike_qualifyConverted (acc : Accepts) (o : TVal) (t : Outcome TypeName) : Alike (qualifyConverted acc o t) :=
  .bind (.lift _) fun _ => .bind (alike_qualifyType true _) fun _ => .ite (.pure _) (.pure _)

theorem alike_qualifyObject (acc : Accepts) (o : TVal) (s : SymbolOrMethodRef) : Alike (qualifyObject acc o s) := by
  cases s <;> exact .bind (alike_ensureImported _) fun _ => .ite (.pure _) (.pure _)

theorem alike_qualifySpecIn (r : SpecRef) (o : TVal) (p : Package) : Alike (qualifySpecIn r o p) :=
  .bind (alike_registerPackage _) fun _ => .ite (.pure _) (.pure _)

mutual
theorem alike_qualifyData (h : Heap) : ∀ (addr : Bool) (v : TVal), Alike (qualifyData h addr v)
  | addr, .iface acc v => by
    by_cases hc : v.isConv = true
    · cases v <;> simp only [TVal.isConv, Bool.false_eq_true] at hc
      case typeName t => rw [qualifyData]; exact alike_qualifyConverted _ _ (.ok t)
      case reflectType t => rw [qualifyData]; exact alike_qualifyConverted _ _ _
      case goType t => rw [qualifyData]; exact alike_qualifyConverted _ _ _
      case goObject o => rw [qualifyData]; exact .bind (.lift _) fun a => alike_qualifyObject _ _ _
      case goPackage g =>
        rw [qualifyData]
        exact .bind (.lift _) fun a => .bind (alike_registerPackage _) fun _ => .ite (.pure _) (.pure _)
    · have hc : v.isConv = false := by simpa using hc
      rw [qualifyData_iface _ _ _ hc]
      exact .bind (alike_qualifyData h false v) fun r => .pure _
  | addr, .package p => by
    rw [qualifyData]
    exact .bind (alike_registerPackage _) fun _ => .ite (.pure _) (.pure _)
  | addr, .symbol s => by
    rw [qualifyData]
    exact .bind (alike_ensureImported s) fun _ => .pure _
  | addr, .mref m => by
    rw [qualifyData]
    exact .bind (alike_ensureImported _) fun _ => .pure _
  | addr, .signature s => by
    rw [qualifyData]
    exact .bind (alike_qualifySignature true s) fun _ => .pure _
  | addr, .spec r => by
    rw [qualifyData]
    refine .bind (.lift _) fun p => ?_
    cases p with
    | none => exact .pure _
    | some f => exact .bind (.lift _) fun f => alike_qualifySpecIn _ _ _
  | addr, .specCopy _ _ => by
    rw [qualifyData]
    exact alike_qualifySpecIn _ _ _
  | addr, .embed e => by
    rw [qualifyData]
    exact .bind (.bind (alike_ensureImported _) fun _ => .pure _) fun _ => .pure _
  | addr, .method m => by
    rw [qualifyData]
    exact .bind (.bind (alike_qualifySignature true _) fun _ => .pure _) fun _ => .pure _
  | addr, .ptr v => by
    rw [qualifyData]
    exact .bind (alike_qualifyData h true v) fun _ => .pure _
  | addr, .struct fs => by
    rw [qualifyData]
    exact .bind (alike_qualifyDataFields h addr false false fs) fun _ => .pure _
  | addr, .array vs => by
    rw [qualifyData]
    exact .bind (alike_qualifyDataElems h addr addr false vs) fun _ => .pure _
  | addr, .slice vs => by
    rw [qualifyData]
    exact .bind (alike_qualifyDataElems h true true false vs) fun _ => .pure _
  | addr, .map es => by
    rw [qualifyData]
    exact .bind (alike_qualifyDataEntries h es) fun _ => .ite (.pure _) (.pure _)
  | addr, .scalar _ => by
    rw [qualifyData]
    · exact .pure _
    all_goals simp
  | addr, .imports => by
    rw [qualifyData]
    · exact .pure _
    all_goals simp
  | addr, .typeName _ => by
    rw [qualifyData]
    · exact .pure _
    all_goals simp
  | addr, .reflectType _ => by
    rw [qualifyData]
    · exact .pure _
    all_goals simp
  | addr, .goType _ => by
    rw [qualifyData]
    · exact .pure _
    all_goals simp
  | addr, .goObject _ => by
    rw [qualifyData]
    · exact .pure _
    all_goals simp
  | addr, .goPackage _ => by
    rw [qualifyData]
    · exact .pure _
    all_goals simp
theorem alike_qualifyDataFields (h : Heap) (addr : Bool) : ∀ (changed hidden : Bool) (fs : List (Bool × TVal)),
    Alike (qualifyDataFields h addr changed hidden fs)
  | changed, hidden, [] => by
    rw [qualifyDataFields]
    exact .pure _
  | changed, hidden, (e, v) :: fs => by
    rw [qualifyDataFields]
    refine .ite .panic (.bind (alike_qualifyData h addr v) fun r => ?_)
    exact .ite .panic (.bind (alike_qualifyDataFields h addr _ _ fs) fun _ => .pure _)
theorem alike_qualifyDataElems (h : Heap) (addr sl : Bool) : ∀ (changed : Bool) (vs : List TVal),
    Alike (qualifyDataElems h addr sl changed vs)
  | changed, [] => by
    rw [qualifyDataElems]
    exact .pure _
  | changed, v :: vs => by
    rw [qualifyDataElems]
    refine .bind (alike_qualifyData h addr v) fun r => ?_
    exact .ite .panic (.bind (alike_qualifyDataElems h addr sl _ vs) fun _ => .pure _)
theorem alike_qualifyDataEntries (h : Heap) : ∀ (es : List (TVal × TVal)), Alike (qualifyDataEntries h es)
  | [] => by
    rw [qualifyDataEntries]
    exact .pure _
  | (a, v) :: es => by
    rw [qualifyDataEntries]
    refine .bind (alike_qualifyData h false a) fun _ => ?_
    refine .bind (alike_qualifyData h false v) fun _ => ?_
    exact .ite .panic (.bind (alike_qualifyDataEntries h es) fun _ => .pure _)
end

theorem alike_qualifyTemplateData (h : Heap) (v : TVal) : Alike (qualifyTemplateData h v) := by
  refine .bind (alike_qualifyData h true _) fun r => ?_
  obtain ⟨r, c⟩ := r
  cases r <;> exact .pure _

mutual
theorem SameFilePackages.qualifyData {h h1 : Heap} (s : SameFilePackages h h1) : ∀ (addr : Bool) (v : TVal),
    qualifyData h1 addr v = Gopoet.qualifyData h addr v
  | addr, .iface acc v => by
    by_cases hc : v.isConv = true
    · cases v <;> simp only [TVal.isConv, Bool.false_eq_true] at hc <;> rw [Gopoet.qualifyData, Gopoet.qualifyData]
    · have hc : v.isConv = false := by simpa using hc
      rw [qualifyData_iface _ _ _ hc, qualifyData_iface _ _ _ hc, s.qualifyData false v]
  | addr, .spec r => by
    rw [Gopoet.qualifyData, Gopoet.qualifyData]
    have hp : r.parent h1 = r.parent h := by
      cases r <;> simp only [SpecRef.parent, s.values, s.types, s.funcs]
    rw [hp]
    congr 1
    funext p
    cases p with
    | none => rfl
    | some f =>
      have hf := congrFun s.packageAt f
      simp only [Gopoet.packageAt, deref] at hf
      simp only [deref]
      cases h2 : h1.files f <;> cases h3 : h.files f <;> rw [h2, h3] at hf
      · cases hf
      · cases hf
      · rename_i f1 f
        have hf : f1.package = f.package := Outcome.ok.inj hf
        show qualifySpecIn r (.spec r) f1.package = qualifySpecIn r (.spec r) f.package
        rw [hf]
  | addr, .ptr v => by rw [Gopoet.qualifyData, Gopoet.qualifyData, s.qualifyData true v]
  | addr, .struct fs => by rw [Gopoet.qualifyData, Gopoet.qualifyData, s.qualifyDataFields addr false false fs]
  | addr, .array vs => by rw [Gopoet.qualifyData, Gopoet.qualifyData, s.qualifyDataElems addr addr false vs]
  | addr, .slice vs => by rw [Gopoet.qualifyData, Gopoet.qualifyData, s.qualifyDataElems true true false vs]
  | addr, .map es => by rw [Gopoet.qualifyData, Gopoet.qualifyData, s.qualifyDataEntries es]
  | addr, .package p => by rw [Gopoet.qualifyData, Gopoet.qualifyData]
  | addr, .symbol s => by rw [Gopoet.qualifyData, Gopoet.qualifyData]
  | addr, .mref m => by rw [Gopoet.qualifyData, Gopoet.qualifyData]
  | addr, .signature s => by rw [Gopoet.qualifyData, Gopoet.qualifyData]
  | addr, .specCopy _ _ => by rw [Gopoet.qualifyData, Gopoet.qualifyData]
  | addr, .embed e => by rw [Gopoet.qualifyData, Gopoet.qualifyData]
  | addr, .method m => by rw [Gopoet.qualifyData, Gopoet.qualifyData]
  | addr, .scalar _ => by rw [Gopoet.qualifyData, Gopoet.qualifyData] <;> simp
  | addr, .imports => by rw [Gopoet.qualifyData, Gopoet.qualifyData] <;> simp
  | addr, .typeName _ => by rw [Gopoet.qualifyData, Gopoet.qualifyData] <;> simp
  | addr, .reflectType _ => by rw [Gopoet.qualifyData, Gopoet.qualifyData] <;> simp
  | addr, .goType _ => by rw [Gopoet.qualifyData, Gopoet.qualifyData] <;> simp
  | addr, .goObject _ => by rw [Gopoet.qualifyData, Gopoet.qualifyData] <;> simp
  | addr, .goPackage _ => by rw [Gopoet.qualifyData, Gopoet.qualifyData] <;> simp
theorem SameFilePackages.qualifyDataFields {h h1 : Heap} (s : SameFilePackages h h1) (addr : Bool) :
    ∀ (changed hidden : Bool) (fs : List (Bool × TVal)),
    qualifyDataFields h1 addr changed hidden fs = Gopoet.qualifyDataFields h addr changed hidden fs
  | changed, hidden, [] => by rw [Gopoet.qualifyDataFields, Gopoet.qualifyDataFields]
  | changed, hidden, (e, v) :: fs => by
    simp only [Gopoet.qualifyDataFields, s.qualifyData addr v, s.qualifyDataFields addr _ _ fs]
theorem SameFilePackages.qualifyDataElems {h h1 : Heap} (s : SameFilePackages h h1) (addr sl : Bool) :
    ∀ (changed : Bool) (vs : List TVal), qualifyDataElems h1 addr sl changed vs = Gopoet.qualifyDataElems h addr sl changed vs
  | changed, [] => by rw [Gopoet.qualifyDataElems, Gopoet.qualifyDataElems]
  | changed, v :: vs => by
    simp only [Gopoet.qualifyDataElems, s.qualifyData addr v, s.qualifyDataElems addr sl _ vs]
theorem SameFilePackages.qualifyDataEntries {h h1 : Heap} (s : SameFilePackages h h1) :
    ∀ (es : List (TVal × TVal)), qualifyDataEntries h1 es = Gopoet.qualifyDataEntries h es
  | [] => by rw [Gopoet.qualifyDataEntries, Gopoet.qualifyDataEntries]
  | (a, v) :: es => by
    simp only [Gopoet.qualifyDataEntries, s.qualifyData false a, s.qualifyData false v, s.qualifyDataEntries es]
end

theorem SameFilePackages.qualifyTemplateData {h h1 : Heap} (s : SameFilePackages h h1) (v : TVal) :
    qualifyTemplateData h1 v = Gopoet.qualifyTemplateData h v := by
  simp only [Gopoet.qualifyTemplateData, s.qualifyData]

/-! ### Files -/

/-- The states of two runs; nothing but the order in the tables is different. -/
structure Same (h : Heap) (i : Imports) (h1 : Heap) (i1 : Imports) : Prop where
  rest : SameButOrder h h1
  templs : h1.templs = h.templs
  tables : SameTables i i1
  inv : Inv i
  inv1 : Inv i1

/-- The results are the same, and the states stay so. -/
def Indiff {α} (x : QM α) : Prop :=
  ∀ h i h1 i1, Same h i h1 i1 → (x h1 i1).1 = (x h i).1 ∧ Same (x h i).2.1 (x h i).2.2 (x h1 i1).2.1 (x h1 i1).2.2

namespace Indiff
variable {α β : Type}

theorem ret (a : α) : Indiff (QM.ret a) := fun _ _ _ _ h => ⟨rfl, h⟩
theorem hang : Indiff (QM.hang : QM α) := fun _ _ _ _ h => ⟨rfl, h⟩

theorem bind {x : QM α} {f : α → QM β} (hx : Indiff x) (hf : ∀ a, Indiff (f a)) : Indiff (QM.bind x f) := by
  intro h i h1 i1 hs
  obtain ⟨h2, h3⟩ := hx _ _ _ _ hs
  simp only [QM.bind]
  rcases he : x h i with ⟨_ | _ | _, h', i'⟩ <;> rcases he1 : x h1 i1 with ⟨_ | _ | _, h1', i1'⟩ <;>
    rw [he, he1] at h2 h3 <;> simp only [Outcome.ok.injEq, reduceCtorEq] at h2
  · subst h2
    exact hf _ _ _ _ _ h3
  · exact ⟨rfl, h3⟩
  · exact ⟨rfl, h3⟩

theorem forEach {f : α → QM Unit} (hf : ∀ a, Indiff (f a)) : ∀ l, Indiff (QM.forEach f l)
  | [] => ret ()
  | a :: l => bind (hf a) fun _ => forEach hf l

theorem read {m : Heap → Ptr → Option α} (hm : ∀ (h : Heap) files templs, m { h with files, templs } = m h) (p : Ptr) :
    Indiff (QM.read m p) := by
  intro h i h1 i1 hs
  refine ⟨?_, hs⟩
  simp only [QM.read]
  rw [hs.rest.rest, hm]

theorem liftTo {x : Heap → IM α} (hx : ∀ h, Alike (x h)) {P : Heap → Package → Prop} (hr : ∀ h, Runs (P h) (x h))
    (hc : ∀ {h h1}, SameButOrder h h1 → x h1 = x h) : Indiff (QM.lift x) := by
  intro h i h1 i1 hs
  obtain ⟨h2, h3⟩ := hx h i i1 hs.tables
  have hr := runs_true (hr h)
  simp only [QM.lift, hc hs.rest]
  exact ⟨h2, hs.rest, hs.templs, h3, (hr i).inv hs.inv, (hr i1).inv hs.inv1⟩

theorem lift {x : IM α} (hx : Alike x) {P : Package → Prop} (hr : Runs P x) : Indiff (QM.lift fun _ => x) :=
  liftTo (fun _ => hx) (fun _ => hr) (fun _ => rfl)

theorem modify {g : Heap → Heap}
    (hg : ∀ (h : Heap) files templs, g { h with files, templs } = { g h with files, templs })
    (hf : ∀ h, (g h).files = h.files) (hs : ∀ h, (g h).templs = h.templs) : Indiff (QM.modify g) := by
  intro h i h1 i1 ht
  refine ⟨rfl, ⟨?_, ?_, ?_⟩, ?_, ht.tables, ht.inv, ht.inv1⟩
  · simp only [QM.modify, hf h1, hs h1]
    conv_lhs => rw [ht.rest.rest, hg]
  · simp only [QM.modify, hf]; exact ht.rest.files
  · simp only [QM.modify, hs]; exact ht.rest.templs
  · simp only [QM.modify, hs]; exact ht.templs

end Indiff

theorem indiff_codeElem (e : CodeElem) : Indiff e.qualify := by
  cases e with
  | line f p =>
    intro h i h1 i1 ht
    have sf := ht.rest.packages
    simp only [CodeElem.qualify, sf.args]
    cases hl : h.args p with
    | none => exact ⟨rfl, ht⟩
    | some l =>
      dsimp only
      obtain ⟨h2, h3, h4⟩ := alike_qualifyArgList h l i i1 ht.tables
      rw [sf.qualifyArgList]
      have e0 := Evolves.mono (Q := fun _ => True) (fun _ _ => trivial) (evolves_qualifyArgList h l i).1
      have e1 := Evolves.mono (Q := fun _ => True) (fun _ _ => trivial) (evolves_qualifyArgList h l i1).1
      rcases hq : qualifyArgList h l i with ⟨o, l', j⟩
      rcases hq1 : qualifyArgList h l i1 with ⟨o1, l1', j1⟩
      rw [hq] at h2 h3 h4 e0
      rw [hq1] at h2 h3 h4 e1
      simp only at h2 h3 h4 e0 e1
      subst h2 h3
      refine ⟨rfl, ⟨?_, ht.rest.files, ht.rest.templs⟩, ht.templs, h4, e0.inv ht.inv, e1.inv ht.inv1⟩
      conv_lhs => rw [ht.rest.rest]
  | templ p =>
    refine .bind ?_ fun t => .bind (.liftTo (fun h => alike_qualifyTemplateData h _) (fun h => runs_qualifyTemplateData h _)
      fun hs => hs.packages.qualifyTemplateData _) fun d => ?_
    · intro h i h1 i1 ht
      refine ⟨?_, ht⟩
      simp only [QM.read, ht.templs]
    · intro h i h1 i1 ht
      refine ⟨rfl, ⟨?_, ht.rest.files, ?_⟩, ?_, ht.tables, ht.inv, ht.inv1⟩
      · simp only [QM.modify]
        conv_lhs => rw [ht.rest.rest]
      · intro q
        simp only [QM.modify, ht.templs]
        rcases hq : upd h.templs p { t with data := d } q with _ | u
        · exact .inl ⟨rfl, rfl⟩
        · exact .inr ⟨_, _, rfl, rfl, rfl, .refl _⟩
      · simp only [QM.modify, ht.templs]

theorem indiff_code (cb : CodeBlock) : Indiff (qualifyCode cb) := .forEach indiff_codeElem cb

theorem indiff_ifaceElem (e : IfaceElem) : Indiff e.qualify := by
  cases e with
  | embed p =>
    refine .bind (.read (fun _ _ _ => rfl) _) fun e => .bind (.lift ?_ (runs_embedQualify e)) fun r =>
      .modify (fun _ _ _ => rfl) (fun _ => rfl) (fun _ => rfl)
    exact .bind (alike_ensureImported _) fun _ => .pure _
  | method p =>
    refine .bind (.read (fun _ _ _ => rfl) _) fun e => .bind (.lift ?_ (runs_methodQualify e)) fun r =>
      .modify (fun _ _ _ => rfl) (fun _ => rfl) (fun _ => rfl)
    exact .bind (alike_qualifySignature true _) fun _ => .pure _

theorem indiff_field {sub : Ptr → QM Unit} (hsub : ∀ p, Indiff (sub p)) (p : Ptr) : Indiff (qualifyField sub p) := by
  refine .bind (.read (fun _ _ _ => rfl) _) fun f => ?_
  cases f.type with
  | nil => exact .ret _
  | name t =>
    exact .bind (.lift (alike_ensureTypeImported t) (runs_ensureTypeImported t)) fun _ =>
      .modify (fun _ _ _ => rfl) (fun _ => rfl) (fun _ => rfl)
  | spec q => exact hsub q

theorem indiff_spec : ∀ fuel p, Indiff (qualifySpec fuel p)
  | 0, _ => .hang
  | fuel + 1, p => by
    exact .bind (.read (fun _ _ _ => rfl) _) fun ts =>
      .bind (.lift (alike_ensureTypeImported _) (runs_ensureTypeImported _)) fun u =>
      .bind (.modify (fun _ _ _ => rfl) (fun _ => rfl) (fun _ => rfl)) fun _ =>
      .bind (.forEach (indiff_field (indiff_spec fuel)) _) fun _ => .forEach indiff_ifaceElem _

theorem indiff_value (fuel : Nat) (p : Ptr) : Indiff (qualifyValue fuel p) := by
  refine .bind (.read (fun _ _ _ => rfl) _) fun c => .bind ?_ fun t =>
    .bind (.modify (fun _ _ _ => rfl) (fun _ => rfl) (fun _ => rfl)) fun _ => ?_
  · cases c.type with
    | nil => exact .ret _
    | name t => exact .bind (.lift (alike_ensureTypeImported t) (runs_ensureTypeImported t)) fun _ => .ret _
    | spec q => exact .bind (indiff_spec fuel q) fun _ => .ret _
  · cases c.init with
    | none => exact .ret _
    | some b => exact .bind (.read (fun _ _ _ => rfl) _) fun _ => indiff_code _

theorem indiff_func (p : Ptr) : Indiff (qualifyFunc p) := by
  exact .bind (.read (fun _ _ _ => rfl) _) fun f =>
    .bind (.lift (alike_ensureAllTypesImported _) (runs_ensureAllTypesImported _)) fun s =>
    .bind (.modify (fun _ _ _ => rfl) (fun _ => rfl) (fun _ => rfl)) fun _ => indiff_code _

theorem indiff_fileElem (fuel : Nat) (e : FileElem) : Indiff (e.qualify fuel) := by
  cases e with
  | values p => exact .bind (.read (fun _ _ _ => rfl) _) fun d => .forEach (indiff_value fuel) _
  | types p => exact .bind (.read (fun _ _ _ => rfl) _) fun d => .forEach (indiff_spec fuel) _
  | func p => exact indiff_func p

/-- The order in the Imports of files makes no difference. -/
theorem same_renderFile {env : Env} (hb : OrderBlind env) (fuel : Nat) (p : Ptr) {h h1 : Heap} (hs : SameButOrder h h1)
    (ht : h1.templs = h.templs) (hi : ∀ f, h.files p = some f → Inv f.imports) (hi1 : ∀ f, h1.files p = some f → Inv f.imports) :
    (renderFile env fuel p h1).1 = (renderFile env fuel p h).1 ∧
    SameButOrder (renderFile env fuel p h).2 (renderFile env fuel p h1).2 := by
  unfold renderFile qualifyFile
  rcases hs.files p with ⟨h2, h3⟩ | ⟨f, f1, h2, h3, hfe, h5⟩
  · rw [h2, h3]
    exact ⟨rfl, hs⟩
  · rw [h2, h3]
    dsimp only
    have hel : f1.elements = f.elements := by rw [hfe]
    have hx := Indiff.forEach (indiff_fileElem fuel) f.elements h f.imports h1 f1.imports
      ⟨hs, ht, h5, hi _ h2, hi1 _ h3⟩
    rcases hx0 : QM.forEach (FileElem.qualify fuel) f.elements h f.imports with ⟨o, g, j⟩
    rcases hx1 : QM.forEach (FileElem.qualify fuel) f.elements h1 f1.imports with ⟨o1, g1, j1⟩
    rw [hx0, hx1] at hx
    rw [← hel] at hx1
    rw [hx1]
    obtain ⟨ho, ht'⟩ := hx
    dsimp only at ho ht' ⊢
    subst ho
    have hsame : SameButOrder { g with files := upd g.files p { f with imports := j } }
        { g1 with files := upd g1.files p { f1 with imports := j1 } } := by
      refine ⟨?_, fun q => ?_, ht'.rest.templs⟩
      · conv_lhs => rw [ht'.rest.rest]
      · by_cases hqp : q = p
        · subst hqp
          refine .inr ⟨_, _, upd_same .., upd_same .., ?_, ht'.tables⟩
          rw [hfe]
        · dsimp only
          rw [upd_ne _ _ hqp, upd_ne _ _ hqp]
          exact ht'.rest.files q
    cases o1 with
    | ok u =>
      refine ⟨?_, hsame⟩
      simp only [deref, upd_same]
      refine twin_fileText hb hsame fuel (f := { f with imports := j }) (f1 := { f1 with imports := j1 }) (by rw [hfe]) ?_
      exact importSpecs_eq_of_get ht'.inv1 ht'.inv ht'.tables.byPath
    | panic => exact ⟨rfl, hsame⟩
    | hang => exact ⟨rfl, hsame⟩

end Gopoet
