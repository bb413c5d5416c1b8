import Verif.Proof.TwinLemmas
import Mathlib.Tactic.Tauto
/-! Two runs of the qualification pass on heaps that differ in the order of map entries only. -/

namespace Gopoet
open Imports

theorem keyEqFields_congr {v v' : TVal} (h : ∀ x, v'.keyEq x = v.keyEq x) (e : Bool) (b : List (Bool × TVal)) :
    ∀ a l, keyEqFields (a ++ (e, v') :: b) l = keyEqFields (a ++ (e, v) :: b) l
  | [], [] => by simp [keyEqFields]
  | [], _ :: _ => by simp [keyEqFields, h]
  | _ :: _, [] => by simp [keyEqFields]
  | _ :: a, _ :: l => by simp [keyEqFields, keyEqFields_congr h e b a l]

theorem keyEqElems_congr {v v' : TVal} (h : ∀ x, v'.keyEq x = v.keyEq x) (b : List TVal) :
    ∀ a l, keyEqElems (a ++ v' :: b) l = keyEqElems (a ++ v :: b) l
  | [], [] => by simp [keyEqElems]
  | [], _ :: _ => by simp [keyEqElems, h]
  | _ :: _, [] => by simp [keyEqElems]
  | _ :: a, _ :: l => by simp [keyEqElems, keyEqElems_congr h b a l]

theorem Reordered.keyEq {k k' : TVal} (h : Reordered k k') : ∀ x, k'.keyEq x = k.keyEq x := by
  induction h with
  | refl => exact fun _ => rfl
  | trans _ _ h1 h2 => exact fun x => (h2 x).trans (h1 x)
  | iface _ ih =>
    intro x
    cases x <;> simp only [TVal.keyEq, ih]
  | field _ ih =>
    intro x
    cases x <;> simp only [TVal.keyEq, keyEqFields_congr ih]
  | array _ ih =>
    intro x
    cases x <;> simp only [TVal.keyEq, keyEqElems_congr ih]
  | _ => intro x; simp [TVal.keyEq]

mutual
theorem keyEq_comm : ∀ a b : TVal, a.keyEq b = b.keyEq a
  | .iface _ a, b => by cases b <;> simp only [TVal.keyEq, keyEq_comm a]
  | .struct a, b => by cases b <;> simp only [TVal.keyEq, keyEqFields_comm a]
  | .array a, b => by cases b <;> simp only [TVal.keyEq, keyEqElems_comm a]
  | .scalar a, b => by cases b <;> simp only [TVal.keyEq, Bool.beq_comm]
  | .package a, b => by cases b <;> simp only [TVal.keyEq, eq_comm]
  | .symbol a, b => by cases b <;> simp only [TVal.keyEq, eq_comm]
  | .mref a, b => by cases b <;> simp only [TVal.keyEq, eq_comm]
  | .embed a, b => by cases b <;> simp only [TVal.keyEq, eq_comm]
  | .signature _, b | .spec _, b | .specCopy _ _, b | .method _, b | .imports, b | .typeName _, b
  | .reflectType _, b | .goType _, b | .goObject _, b | .goPackage _, b | .ptr _, b | .slice _, b
  | .map _, b => by cases b <;> simp only [TVal.keyEq]
theorem keyEqFields_comm : ∀ a b : List (Bool × TVal), keyEqFields a b = keyEqFields b a
  | [], [] => rfl
  | [], _ :: _ => by simp [keyEqFields]
  | _ :: _, [] => by simp [keyEqFields]
  | (_, a) :: l, (_, b) :: l' => by simp only [keyEqFields, keyEq_comm a b, keyEqFields_comm l l']
theorem keyEqElems_comm : ∀ a b : List TVal, keyEqElems a b = keyEqElems b a
  | [], [] => rfl
  | [], _ :: _ => by simp [keyEqElems]
  | _ :: _, [] => by simp [keyEqElems]
  | a :: l, b :: l' => by simp only [keyEqElems, keyEq_comm a b, keyEqElems_comm l l']
end

theorem keysDistinct_iff (l : List (TVal × TVal)) :
    keysDistinct l = true ↔ l.Pairwise fun e x => e.1.keyEq x.1 = false := by
  induction l with
  | nil => simp [keysDistinct]
  | cons e l ih => simp [keysDistinct, ih, List.pairwise_cons, List.all_eq_true]

theorem keysPlain_iff (l : List (TVal × TVal)) : keysPlain l = true ↔ ∀ e ∈ l, ∃ n, e.1 = .scalar n := by
  induction l with
  | nil => simp [keysPlain]
  | cons e l ih =>
    obtain ⟨k, v⟩ := e
    cases k <;> simp [keysPlain, ih]

theorem Reordered.scalar_inv {u w : TVal} (h : Reordered u w) : ∀ {n}, u = .scalar n → w = .scalar n := by
  induction h with
  | refl => exact id
  | trans _ _ h1 h2 => exact fun h => h2 (h1 h)
  | _ => intro _ h; simp at h

theorem noSpecsFields_eq (l : List (Bool × TVal)) : noSpecsFields l = l.all (·.2.noSpecs) := by
  induction l with
  | nil => rfl
  | cons x l ih => obtain ⟨e, v⟩ := x; simp [noSpecsFields, ih]
theorem noSpecsElems_eq (l : List TVal) : noSpecsElems l = l.all (·.noSpecs) := by
  induction l with
  | nil => rfl
  | cons x l ih => simp [noSpecsElems, ih]
theorem noSpecsEntries_eq (l : List (TVal × TVal)) : noSpecsEntries l = l.all (fun e => e.1.noSpecs && e.2.noSpecs) := by
  induction l with
  | nil => rfl
  | cons x l ih => obtain ⟨e, v⟩ := x; simp [noSpecsEntries, ih]
theorem validTypesFields_eq (l : List (Bool × TVal)) : validTypesFields l = l.all (·.2.validTypes) := by
  induction l with
  | nil => rfl
  | cons x l ih => obtain ⟨e, v⟩ := x; simp [validTypesFields, ih]
theorem validTypesElems_eq (l : List TVal) : validTypesElems l = l.all (·.validTypes) := by
  induction l with
  | nil => rfl
  | cons x l ih => simp [validTypesElems, ih]
theorem validTypesEntries_eq (l : List (TVal × TVal)) :
    validTypesEntries l = l.all (fun e => e.1.validTypes && e.2.validTypes) := by
  induction l with
  | nil => rfl
  | cons x l ih => obtain ⟨e, v⟩ := x; simp [validTypesEntries, ih]
theorem settableFields_eq (b : Bool) (l : List (Bool × TVal)) : settableFields b l = l.all (fun f => f.1 && f.2.settable b) := by
  induction l with
  | nil => rfl
  | cons x l ih => obtain ⟨e, v⟩ := x; simp [settableFields, ih]
theorem settableElems_eq (b : Bool) (l : List TVal) : settableElems b l = l.all (·.settable b) := by
  induction l with
  | nil => rfl
  | cons x l ih => simp [settableElems, ih]
theorem settableEntries_eq (l : List (TVal × TVal)) :
    settableEntries l = l.all (fun e => e.1.settable false && e.2.settable false) := by
  induction l with
  | nil => rfl
  | cons x l ih => obtain ⟨e, v⟩ := x; simp [settableEntries, ih]
theorem plainKeysFields_eq (l : List (Bool × TVal)) : plainKeysFields l = l.all (·.2.plainKeys) := by
  induction l with
  | nil => rfl
  | cons x l ih => obtain ⟨e, v⟩ := x; simp [plainKeysFields, ih]
theorem plainKeysElems_eq (l : List TVal) : plainKeysElems l = l.all (·.plainKeys) := by
  induction l with
  | nil => rfl
  | cons x l ih => simp [plainKeysElems, ih]
theorem plainKeysEntries_eq (l : List (TVal × TVal)) : plainKeysEntries l = l.all (fun e => e.2.plainKeys) := by
  induction l with
  | nil => rfl
  | cons x l ih => obtain ⟨e, v⟩ := x; simp [plainKeysEntries, ih]
theorem distinctKeysFields_eq (l : List (Bool × TVal)) : distinctKeysFields l = l.all (·.2.distinctKeys) := by
  induction l with
  | nil => rfl
  | cons x l ih => obtain ⟨e, v⟩ := x; simp [distinctKeysFields, ih]
theorem distinctKeysElems_eq (l : List TVal) : distinctKeysElems l = l.all (·.distinctKeys) := by
  induction l with
  | nil => rfl
  | cons x l ih => simp [distinctKeysElems, ih]
theorem distinctKeysEntries_eq (l : List (TVal × TVal)) :
    distinctKeysEntries l = l.all (fun e => e.1.distinctKeys && e.2.distinctKeys) := by
  induction l with
  | nil => rfl
  | cons x l ih => obtain ⟨e, v⟩ := x; simp [distinctKeysEntries, ih]

theorem all_eq_of_perm {α : Type} {l l1 : List α} (h : l.Perm l1) (p : α → Bool) : l1.all p = l.all p := by
  rw [Bool.eq_iff_iff]
  simp only [List.all_eq_true]
  exact ⟨fun h1 x hx => h1 x (h.mem_iff.1 hx), fun h1 x hx => h1 x (h.mem_iff.2 hx)⟩

theorem Reordered.noSpecs {v v' : TVal} (h : Reordered v v') : v'.noSpecs = v.noSpecs := by
  induction h with
  | refl => rfl
  | trans _ _ h1 h2 => exact h2.trans h1
  | perm hp => simp only [TVal.noSpecs, noSpecsEntries_eq, all_eq_of_perm hp]
  | _ => simp only [TVal.noSpecs, noSpecsEntries_eq, noSpecsElems_eq, noSpecsFields_eq, List.all_append, List.all_cons, *]

theorem Reordered.validTypes {v v' : TVal} (h : Reordered v v') : v'.validTypes = v.validTypes := by
  induction h with
  | refl => rfl
  | trans _ _ h1 h2 => exact h2.trans h1
  | perm hp => simp only [TVal.validTypes, validTypesEntries_eq, all_eq_of_perm hp]
  | @iface acc v v' hr ih =>
    by_cases hc : v.isConv = true
    · rw [hr.conv.2 hc]
    · have hc : v.isConv = false := by simpa using hc
      have hc' := hr.conv.1.trans hc
      have key : ∀ w : TVal, w.isConv = false → (TVal.iface acc w).validTypes = w.validTypes := by
        intro w hw
        cases w <;> first | rfl | simp [TVal.isConv] at hw
      rw [key _ hc, key _ hc', ih]
  | _ => simp only [TVal.validTypes, validTypesEntries_eq, validTypesElems_eq, validTypesFields_eq, List.all_append,
      List.all_cons, *]

theorem Reordered.settable {v v' : TVal} (h : Reordered v v') : ∀ b, v'.settable b = v.settable b := by
  induction h with
  | refl => exact fun _ => rfl
  | trans _ _ h1 h2 => exact fun b => (h2 b).trans (h1 b)
  | perm hp => intro b; simp only [TVal.settable, settableEntries_eq, all_eq_of_perm hp]
  | _ => intro b; simp only [TVal.settable, settableEntries_eq, settableElems_eq, settableFields_eq, List.all_append,
      List.all_cons, *]

theorem flatPtrsFields_eq (l : List (Bool × TVal)) : flatPtrsFields l = l.all (·.2.flatPtrs) := by
  induction l with
  | nil => rfl
  | cons x l ih => obtain ⟨e, v⟩ := x; simp [flatPtrsFields, ih]
theorem flatPtrsElems_eq (l : List TVal) : flatPtrsElems l = l.all (·.flatPtrs) := by
  induction l with
  | nil => rfl
  | cons x l ih => simp [flatPtrsElems, ih]
theorem flatPtrsEntries_eq (l : List (TVal × TVal)) :
    flatPtrsEntries l = l.all (fun e => e.1.flatPtrs && e.2.flatPtrs) := by
  induction l with
  | nil => rfl
  | cons x l ih => obtain ⟨e, v⟩ := x; simp [flatPtrsEntries, ih]

theorem Reordered.isIface {v v' : TVal} (h : Reordered v v') : v'.isIface = v.isIface := by
  induction h with
  | trans _ _ h1 h2 => exact h2.trans h1
  | _ => rfl

theorem Reordered.flatPtrs {v v' : TVal} (h : Reordered v v') : v'.flatPtrs = v.flatPtrs := by
  induction h with
  | refl => rfl
  | trans _ _ h1 h2 => exact h2.trans h1
  | perm hp => simp only [TVal.flatPtrs, flatPtrsEntries_eq, all_eq_of_perm hp]
  | ptr hr ih => simp only [TVal.flatPtrs, hr.isIface, ih]
  | _ => simp only [TVal.flatPtrs, flatPtrsEntries_eq, flatPtrsElems_eq, flatPtrsFields_eq, List.all_append, List.all_cons, *]

theorem Reordered.plainKeys {v v' : TVal} (h : Reordered v v') : v.plainKeys = true → v'.plainKeys = true := by
  induction h with
  | refl => exact id
  | trans _ _ h1 h2 => exact fun h => h2 (h1 h)
  | perm hp =>
    simp only [TVal.plainKeys, plainKeysEntries_eq, all_eq_of_perm hp, Bool.and_eq_true, keysPlain_iff]
    exact fun h => ⟨fun e he => h.1 e (hp.mem_iff.2 he), h.2⟩
  | key hr ih =>
    simp only [TVal.plainKeys, plainKeysEntries_eq, Bool.and_eq_true, keysPlain_iff, List.mem_append, List.mem_cons, List.all_append,
      List.all_cons]
    rintro ⟨h1, h2⟩
    refine ⟨?_, h2⟩
    rintro e (he | rfl | he)
    · exact h1 e (.inl he)
    · obtain ⟨n, hn⟩ := h1 _ (.inr (.inl rfl))
      exact ⟨n, hr.scalar_inv hn⟩
    · exact h1 e (.inr (.inr he))
  | value hr ih =>
    simp only [TVal.plainKeys, plainKeysEntries_eq, Bool.and_eq_true, keysPlain_iff, List.mem_append, List.mem_cons, List.all_append,
      List.all_cons]
    rintro ⟨h1, h2, h3, h4⟩
    refine ⟨?_, h2, ih h3, h4⟩
    rintro e (he | rfl | he)
    · exact h1 e (.inl he)
    · obtain ⟨n, hn⟩ := h1 _ (.inr (.inl rfl))
      exact ⟨n, hn⟩
    · exact h1 e (.inr (.inr he))
  | _ =>
    simp only [TVal.plainKeys, plainKeysElems_eq, plainKeysFields_eq, List.all_append, List.all_cons, Bool.and_eq_true]
    tauto

theorem Reordered.distinctKeys {v v' : TVal} (h : Reordered v v') : v.distinctKeys = true → v'.distinctKeys = true := by
  induction h with
  | refl => exact id
  | trans _ _ h1 h2 => exact fun h => h2 (h1 h)
  | perm hp =>
    simp only [TVal.distinctKeys, distinctKeysEntries_eq, all_eq_of_perm hp, Bool.and_eq_true, keysDistinct_iff]
    exact fun h => ⟨(hp.pairwise_iff fun {a b} hab => by rw [keyEq_comm]; exact hab).1 h.1, h.2⟩
  | key hr ih =>
    simp only [TVal.distinctKeys, distinctKeysEntries_eq, Bool.and_eq_true, keysDistinct_iff, List.pairwise_append,
      List.pairwise_cons, List.mem_cons, List.all_append, List.all_cons, forall_eq_or_imp, hr.keyEq, keyEq_comm _ _]
    tauto
  | value hr ih =>
    simp only [TVal.distinctKeys, distinctKeysEntries_eq, Bool.and_eq_true, keysDistinct_iff, List.pairwise_append,
      List.pairwise_cons, List.mem_cons, List.all_append, List.all_cons, forall_eq_or_imp]
    tauto
  | _ =>
    simp only [TVal.distinctKeys, distinctKeysElems_eq, distinctKeysFields_eq, List.all_append, List.all_cons, Bool.and_eq_true]
    tauto

theorem Reordered.plainData {v v' : TVal} (h : Reordered v v') (hp : PlainData v) : PlainData v' where
  noSpecs := h.noSpecs.trans hp.noSpecs
  valid := (Reordered.iface h).validTypes.trans hp.valid
  settable := (h.settable false).trans hp.settable
  flatPtrs := h.flatPtrs.trans hp.flatPtrs
  plainKeys := h.plainKeys hp.plainKeys
  distinctKeys := h.distinctKeys hp.distinctKeys

/-- All mentions of a package that is not imported yet use one name, and `nm` knows it. (This is for data without
specs, for which the memory does not matter.) -/
def OneName (nm : GoString → Option GoString) (i : Imports) (v : TVal) : Prop :=
  ∀ pk ∈ ((TVal.iface acceptsAll v).mentions {}), IsNew i pk → nm pk.importPath = some pk.name

theorem Ext.isNew {i j : Imports} (h : Ext i j) {k : Package} (hk : IsNew j k) : IsNew i k := by
  refine ⟨fun he => hk.1 (he.trans h.own.symm), ?_⟩
  cases hg : i.importsByPath.get k.importPath with
  | none => rfl
  | some d => have := h.keeps _ _ hg; rw [hk.2] at this; simp at this

mutual
theorem qualifyData_noSpecs (h h' : Heap) : ∀ (addr : Bool) (v : TVal), v.noSpecs = true →
    qualifyData h addr v = qualifyData h' addr v
  | addr, .iface acc v, hs => by
    have ih := qualifyData_noSpecs h h' false v (by simpa [TVal.noSpecs] using hs)
    by_cases hv : v.isConv = false
    · rw [qualifyData_iface _ _ _ hv, qualifyData_iface _ _ _ hv, ih]
    · cases v <;> simp [TVal.isConv] at hv <;> simp only [qualifyData]
  | addr, .ptr v, hs => by
    have ih := qualifyData_noSpecs h h' true v (by simpa [TVal.noSpecs] using hs)
    simp only [qualifyData, ih]
  | addr, .struct fs, hs => by
    simp only [qualifyData, qualifyDataFields_noSpecs h h' addr false false fs (by simpa [TVal.noSpecs] using hs)]
  | addr, .array vs, hs => by
    simp only [qualifyData, qualifyDataElems_noSpecs h h' addr addr false vs (by simpa [TVal.noSpecs] using hs)]
  | addr, .slice vs, hs => by
    simp only [qualifyData, qualifyDataElems_noSpecs h h' true true false vs (by simpa [TVal.noSpecs] using hs)]
  | addr, .map es, hs => by
    simp only [qualifyData, qualifyDataEntries_noSpecs h h' es (by simpa [TVal.noSpecs] using hs)]
  | addr, .spec _, hs => by simp [TVal.noSpecs] at hs
  | addr, .specCopy .., hs => by simp [TVal.noSpecs] at hs
  | addr, .typeName .., _ | addr, .reflectType .., _ | addr, .goType .., _ | addr, .goObject .., _
  | addr, .goPackage .., _ | addr, .package .., _ | addr, .symbol .., _ | addr, .mref .., _
  | addr, .signature .., _ | addr, .embed .., _ | addr, .method .., _ | addr, .scalar .., _ | addr, .imports, _ => by simp only [qualifyData]

theorem qualifyDataFields_noSpecs (h h' : Heap) (addr : Bool) : ∀ (changed hidden : Bool) (fs : List (Bool × TVal)),
    noSpecsFields fs = true → qualifyDataFields h addr changed hidden fs = qualifyDataFields h' addr changed hidden fs
  | _, _, [], _ => by simp only [qualifyDataFields]
  | c, d, (e, v) :: fs, hs => by
    rw [noSpecsFields, Bool.and_eq_true] at hs
    simp only [qualifyDataFields, qualifyData_noSpecs h h' addr v hs.1,
      fun c d => qualifyDataFields_noSpecs h h' addr c d fs hs.2]

theorem qualifyDataElems_noSpecs (h h' : Heap) (addr sliceable : Bool) : ∀ (changed : Bool) (vs : List TVal),
    noSpecsElems vs = true → qualifyDataElems h addr sliceable changed vs = qualifyDataElems h' addr sliceable changed vs
  | _, [], _ => by simp only [qualifyDataElems]
  | c, v :: vs, hs => by
    rw [noSpecsElems, Bool.and_eq_true] at hs
    simp only [qualifyDataElems, qualifyData_noSpecs h h' addr v hs.1,
      fun c => qualifyDataElems_noSpecs h h' addr sliceable c vs hs.2]

theorem qualifyDataEntries_noSpecs (h h' : Heap) : ∀ (es : List (TVal × TVal)),
    noSpecsEntries es = true → qualifyDataEntries h es = qualifyDataEntries h' es
  | [], _ => by simp only [qualifyDataEntries]
  | (k, v) :: es, hs => by
    simp only [noSpecsEntries, Bool.and_eq_true] at hs
    simp only [qualifyDataEntries, qualifyData_noSpecs h h' false v hs.1.2, qualifyData_noSpecs h h' false k hs.1.1,
      qualifyDataEntries_noSpecs h h' es hs.2]
end

theorem qualifyTemplateData_noSpecs (h h' : Heap) {v : TVal} (hs : v.noSpecs = true) :
    qualifyTemplateData h v = qualifyTemplateData h' v := by
  simp only [qualifyTemplateData, qualifyData_noSpecs h h' true (.iface acceptsAll v) (by simpa [TVal.noSpecs] using hs)]
/-- Qualifying the template data does nothing, in this state and in all later ones. -/
def DataStill (i : Imports) (v : TVal) : Prop := ∀ h k, Ext i k → qualifyTemplateData h v k = (.ok v, k)

theorem Ext.dataStill {i j : Imports} (h : Ext i j) {v : TVal} (hv : DataStill i v) : DataStill j v :=
  fun h' k hk => hv h' k (h.trans hk)

theorem qualifyTemplateData_still {h : Heap} {v v' : TVal} {i j : Imports} (hs : v.noSpecs = true)
    (hx : qualifyTemplateData h v i = (.ok v', j)) : DataStill j v' := by
  obtain ⟨h1, h2⟩ := qualifyTemplateData_done hx
  intro h' k hk
  rw [qualifyTemplateData_noSpecs h' h (h2 hs)]
  exact h1.1 h k (.refl _) hk (by rw [copyNames_of_noSpecs (h2 hs)]; simp [CopiesNamed])

/-- The states of two runs. -/
structure Twin (nm : GoString → Option GoString) (h : Heap) (i : Imports) (h1 : Heap) (i1 : Imports) : Prop where
  same : SameButOrder h h1
  tables : SameTables i i1
  inv : Inv i
  inv1 : Inv i1
  templs : ∀ p t t1, h.templs p = some t → h1.templs p = some t1 →
    (DataStill i t.data ∧ DataStill i1 t1.data) ∨ (PlainData t.data ∧ OneName nm i t.data ∧ PlainData t1.data)

/-- In the final imports those packages have their own names. -/
structure OwnNames (nm : GoString → Option GoString) (J : Imports) : Prop where
  inv : Inv J
  names : ∀ p d n, nm p = some n → J.importsByPath.get p = some d → d.packageName = baseName ⟨p, n⟩

/-- If the first run returns and ends in imports of which `J` is an extension, so does the second. -/
structure Resp {α} (nm : GoString → Option GoString) (J : Imports) (x : QM α) : Prop where
  grows : ∀ h i, Evolves (fun _ => True) i (x h i).2.2
  run : ∀ {h i h1 i1}, Twin nm h i h1 i1 → ∀ {a h' i'}, x h i = (.ok a, h', i') → Ext i' J →
    ∃ h1' i1', x h1 i1 = (.ok a, h1', i1') ∧ Twin nm h' i' h1' i1'

namespace Resp
variable {α β : Type} {nm : GoString → Option GoString} {J : Imports}

theorem ret (a : α) : Resp nm J (QM.ret a) := by
  refine ⟨fun _ _ => .refl _, fun {h i h1 i1} ht {a h' i'} hx _ => ?_⟩
  simp only [QM.ret, Prod.mk.injEq, Outcome.ok.injEq] at hx
  obtain ⟨rfl, rfl, rfl⟩ := hx
  exact ⟨_, _, rfl, ht⟩

theorem hang : Resp nm J (QM.hang : QM α) := by
  refine ⟨fun _ _ => .refl _, fun {h i h1 i1} ht {a h' i'} hx _ => ?_⟩
  simp [QM.hang] at hx

theorem bind {x : QM α} {f : α → QM β} (hx : Resp nm J x) (hf : ∀ a, Resp nm J (f a)) :
    Resp nm J (QM.bind x f) := by
  constructor
  · intro h i
    have h1 := hx.grows h i
    unfold QM.bind
    rcases he : x h i with ⟨_ | _ | _, h', i'⟩ <;> rw [he] at h1
    · exact h1.trans ((hf _).grows _ _)
    · exact h1
    · exact h1
  · intro h i h1 i1 ht b h'' i'' hr hJ
    simp only [QM.bind] at hr
    rcases he : x h i with ⟨a | _ | _, h', i'⟩ <;> rw [he] at hr
    · dsimp only at hr
      have hg := (hf a).grows h' i'
      rw [hr] at hg
      obtain ⟨h1', i1', hx1, ht'⟩ := hx.run ht he (hg.ext.trans hJ)
      obtain ⟨h1'', i1'', hf1, ht''⟩ := (hf a).run ht' hr hJ
      exact ⟨h1'', i1'', by simp only [QM.bind, hx1, hf1], ht''⟩
    · simp at hr
    · simp at hr

theorem forEach {f : α → QM Unit} (hf : ∀ a, Resp nm J (f a)) : ∀ l, Resp nm J (QM.forEach f l)
  | [] => ret ()
  | a :: l => bind (hf a) fun _ => forEach hf l

theorem read {m : Heap → Ptr → Option α} (hm : ∀ (h : Heap) files templs, m { h with files, templs } = m h) (p : Ptr) :
    Resp nm J (QM.read m p) := by
  refine ⟨fun _ _ => .refl _, fun {h i h1 i1} ht {a h' i'} hx _ => ?_⟩
  simp only [QM.read, Prod.mk.injEq] at hx
  obtain ⟨h1, rfl, rfl⟩ := hx
  refine ⟨_, _, ?_, ht⟩
  simp only [QM.read, Prod.mk.injEq, and_true]
  rw [ht.same.rest, hm, h1]

theorem lift {x : IM α} (hx : Alike x) {P : Package → Prop} (hr : Runs P x) : Resp nm J (QM.lift fun _ => x) := by
  have hr := runs_true hr
  refine ⟨fun h i => hr i, fun {h i h1 i1} ht {a h' i'} he _ => ?_⟩
  simp only [QM.lift, Prod.mk.injEq] at he
  obtain ⟨h2, rfl, rfl⟩ := he
  obtain ⟨h3, h4⟩ := hx i i1 ht.tables
  refine ⟨h1, (x i1).2, by simp only [QM.lift, h3, h2], ht.same, h4, (hr i).inv ht.inv, (hr i1).inv ht.inv1, ?_⟩
  intro p t t1 hp hp1
  rcases ht.templs p t t1 hp hp1 with ⟨h5, h6⟩ | ⟨h5, h6, h7⟩
  · exact .inl ⟨(hr i).ext.dataStill h5, (hr i1).ext.dataStill h6⟩
  · exact .inr ⟨h5, fun pk hpk hn => h6 pk hpk ((hr i).ext.isNew hn), h7⟩

/-- a write to a table that is not one of files or templates -/
theorem modify {g : Heap → Heap}
    (hg : ∀ (h : Heap) files templs, g { h with files, templs } = { g h with files, templs })
    (hf : ∀ h, (g h).files = h.files) (hs : ∀ h, (g h).templs = h.templs) : Resp nm J (QM.modify g) := by
  refine ⟨fun h i => .refl _, fun {h i h1 i1} ht {a h' i'} he _ => ?_⟩
  simp only [QM.modify, Prod.mk.injEq] at he
  obtain ⟨-, rfl, rfl⟩ := he
  refine ⟨_, _, rfl, ⟨?_, ?_, ?_⟩, ht.tables, ht.inv, ht.inv1, ?_⟩
  · rw [hf h1, hs h1]
    conv_lhs => rw [ht.same.rest, hg]
  · rw [hf, hf]; exact ht.same.files
  · rw [hs, hs]; exact ht.same.templs
  · rw [hs, hs]; exact ht.templs

end Resp

/-! ### What depends on the heap by the packages of files only -/

theorem SameButOrder.packageAt {h h1 : Heap} (s : SameButOrder h h1) : packageAt h1 = packageAt h := by
  funext p
  simp only [Gopoet.packageAt, deref]
  rcases s.files p with ⟨h2, h3⟩ | ⟨f, f1, h2, h3, h4, h5⟩
  · rw [h2, h3]
  · rw [h2, h3, h4]
    show Outcome.ok (Package.mk f1.imports.pkgPath f.packageName) = Outcome.ok (Package.mk f.imports.pkgPath f.packageName)
    rw [h5.own]

/-- The heaps are the same but for files and templates, and the files have the same packages. -/
structure SameFilePackages (h h1 : Heap) : Prop where
  rest : h1 = { h with files := h1.files, templs := h1.templs }
  packageAt : packageAt h1 = packageAt h

theorem SameButOrder.packages {h h1 : Heap} (s : SameButOrder h h1) : SameFilePackages h h1 := ⟨s.rest, s.packageAt⟩

namespace SameFilePackages
variable {h h1 : Heap}

theorem values (s : SameFilePackages h h1) : h1.values = h.values := by rw [s.rest]
theorem valueDecls (s : SameFilePackages h h1) : h1.valueDecls = h.valueDecls := by rw [s.rest]
theorem types (s : SameFilePackages h h1) : h1.types = h.types := by rw [s.rest]
theorem typeDecls (s : SameFilePackages h h1) : h1.typeDecls = h.typeDecls := by rw [s.rest]
theorem fields (s : SameFilePackages h h1) : h1.fields = h.fields := by rw [s.rest]
theorem embeds (s : SameFilePackages h h1) : h1.embeds = h.embeds := by rw [s.rest]
theorem methods (s : SameFilePackages h h1) : h1.methods = h.methods := by rw [s.rest]
theorem funcs (s : SameFilePackages h h1) : h1.funcs = h.funcs := by rw [s.rest]
theorem blocks (s : SameFilePackages h h1) : h1.blocks = h.blocks := by rw [s.rest]
theorem args (s : SameFilePackages h h1) : h1.args = h.args := by rw [s.rest]

theorem symbolAt (s : SameFilePackages h h1) (c : ValueSpec) : c.symbolAt h1 = c.symbolAt h := by
  funext n
  simp only [ValueSpec.symbolAt, s.packageAt]

theorem symbolStrings (s : SameFilePackages h h1) (c : ValueSpec) : ∀ l, symbolStrings h1 c l = symbolStrings h c l
  | [] => rfl
  | n :: l => by simp only [Gopoet.symbolStrings, s.symbolAt, s.symbolStrings c l]

theorem valueSymbol (s : SameFilePackages h h1) (c : ValueSpec) : c.toSymbol h1 = c.toSymbol h := by
  simp only [ValueSpec.toSymbol, s.symbolAt]

theorem typeSymbol (s : SameFilePackages h h1) (c : TypeSpec) : c.toSymbol h1 = c.toSymbol h := by
  simp only [TypeSpec.toSymbol, s.packageAt]

theorem funcSymbol (s : SameFilePackages h h1) (c : FuncSpec) : c.toSymbol h1 = c.toSymbol h := by
  simp only [FuncSpec.toSymbol, s.packageAt]

theorem methodRef (s : SameFilePackages h h1) (c : InterfaceMethod) : c.toMethodRef h1 = c.toMethodRef h := by
  simp only [InterfaceMethod.toMethodRef, s.types, s.typeSymbol]

theorem qualifyArg (s : SameFilePackages h h1) (a : Arg) : qualifyArg h1 a = qualifyArg h a := by
  cases a <;> simp only [Gopoet.qualifyArg, s.values, s.types, s.methods, s.funcs, s.valueSymbol, s.typeSymbol, s.funcSymbol,
    s.methodRef]

theorem qualifyArgList (s : SameFilePackages h h1) : ∀ (l : List Arg) (i : Imports),
    qualifyArgList h1 l i = qualifyArgList h l i
  | [], _ => rfl
  | a :: l, i => by
    simp only [Gopoet.qualifyArgList, s.qualifyArg, s.qualifyArgList l]

theorem shown (s : SameFilePackages h h1) (tbl : Nat → Bool) (a : Arg) : a.shown tbl h1 = a.shown tbl h := by
  cases a <;> simp only [Arg.shown, s.values, s.types, s.methods, s.funcs, s.embeds, s.fields, ValueSpec.string, TypeSpec.string,
    FuncSpec.string, s.symbolStrings, s.valueSymbol, s.typeSymbol, s.funcSymbol]

end SameFilePackages

/-! ### Qualification -/

section
variable {nm : GoString → Option GoString} {J : Imports}

theorem Reordered.iface_inv {u w : TVal} (h : Reordered u w) : ∀ {acc v}, u = .iface acc v → ∃ v', w = .iface acc v' ∧ Reordered v v' := by
  induction h with
  | refl v => rintro acc v rfl; exact ⟨_, rfl, .refl _⟩
  | trans _ _ h1 h2 =>
    rintro acc v rfl
    obtain ⟨v', rfl, h3⟩ := h1 rfl
    obtain ⟨v'', rfl, h4⟩ := h2 rfl
    exact ⟨_, rfl, h3.trans h4⟩
  | iface h =>
    rintro acc v he
    simp only [TVal.iface.injEq] at he
    obtain ⟨rfl, rfl⟩ := he
    exact ⟨_, rfl, h⟩
  | _ => intro _ _ he; simp at he

/-- Qualifying data in two orders, if in the end every package has its own name. -/
theorem twin_qualifyTemplateData (hJ : OwnNames nm J) {h h1 : Heap} {i i1 j : Imports} {v v1 v' : TVal}
    (hi : Inv i) (hi1 : Inv i1) (hs : SameTables i i1) (hr : Reordered v v1) (hp : PlainData v) (hp1 : PlainData v1)
    (hn : OneName nm i v) (hq : qualifyTemplateData h v i = (.ok v', j)) (hj : Ext j J) :
    ∃ v1' j1, qualifyTemplateData h1 v1 i1 = (.ok v1', j1) ∧ SameTables j j1 ∧ Reordered v' v1' := by
  obtain ⟨v1', j1, hq1, hres1⟩ := C42_plain_data_partial (h := h1) (memory_of_noSpecs h1 h1 (fun p => p) _ hp1.noSpecs).1 hp1.valid hp1.settable hp1.flatPtrs hp1.plainKeys
    hp1.distinctKeys i1
  have hres := C42_result_partial hp.valid hp.flatPtrs hq
    (distinctKeys_requalify _ _ _ (by simpa [TVal.plainKeys] using hp.plainKeys) (by simpa [TVal.distinctKeys] using hp.distinctKeys))
  have hperm := (Reordered.iface (acc := acceptsAll) hr).mentions {}
  have he := effect_qualifyTemplateData h v _ _ _ hq
  have he1 := effect_qualifyTemplateData h1 v1 _ _ _ hq1
  rw [mentions_of_noSpecs h {} hp.noSpecs] at he
  rw [mentions_of_noSpecs h1 {} hp1.noSpecs] at he1
  rw [requalify_of_noSpecs h {} _ hp.noSpecs] at hres
  rw [requalify_of_noSpecs h1 {} _ hp1.noSpecs] at hres1
  have hclash : NoClash i ((TVal.iface acceptsAll v).mentions {}) := by
    -- all of them are registered under their own names in the end
    have hreg : ∀ k ∈ ((TVal.iface acceptsAll v).mentions {}), IsNew i k →
        ∃ d, j.importsByPath.get k.importPath = some d ∧ J.importsByPath.get k.importPath = some d ∧ d.packageName = baseName k := by
      intro k hk hnew
      have hknown := (registerAll_known i _ k hk).resolve_left hnew.1
      rw [← he] at hknown
      cases hg : j.importsByPath.get k.importPath with
      | none => exact absurd hg hknown
      | some d =>
        have hg2 := hj.keeps _ _ hg
        refine ⟨d, rfl, hg2, ?_⟩
        exact hJ.names _ _ _ (hn k hk hnew) hg2
    have hext : Ext i J := by
      have := (after_registerAll i ((TVal.iface acceptsAll v).mentions {})).ext
      rw [← he] at this
      exact this.trans hj
    intro k hk hnew
    obtain ⟨d, -, h2, h3⟩ := hreg k hk hnew
    refine ⟨?_, fun k' hk' hnew' => ⟨fun hpath => ?_, fun hbase => ?_⟩⟩
    · cases hb : i.pathsByName.get (baseName k) with
      | none => rfl
      | some p' =>
        exfalso
        obtain ⟨d', h4, h5⟩ := hi.toPath _ _ hb
        have h6 := hJ.inv.toName _ _ (hext.keeps _ _ h4)
        have h7 := hJ.inv.toName _ _ h2
        rw [h5, ← h3, h7] at h6
        simp only [Option.some.injEq] at h6
        rw [← h6, hnew.2] at h4
        simp at h4
    · have h4 := hn k hk hnew
      have h5 := hn k' hk' hnew'
      obtain ⟨p, n⟩ := k
      obtain ⟨p', n'⟩ := k'
      simp only at hpath h4 h5
      subst hpath
      rw [h4] at h5
      rw [Option.some.inj h5]
    · obtain ⟨d', -, h4, h5⟩ := hreg k' hk' hnew'
      have h6 := hJ.inv.toName _ _ h2
      have h7 := hJ.inv.toName _ _ h4
      rw [h3, hbase, ← h5, h7] at h6
      exact (Option.some.inj h6).symm
  have htab : SameTables j j1 := by
    rw [he, he1]
    exact sameTables_registerAll hi hi1 hs hperm hclash
  refine ⟨v1', j1, hq1, htab, ?_⟩
  have hrq := (Reordered.iface (acc := acceptsAll) hr).requalify {} j.qualifierOf
  rw [hres, ← htab.qualifierOf, hres1] at hrq
  obtain ⟨w, h2, h3⟩ := hrq.iface_inv rfl
  simp only [TVal.iface.injEq, true_and] at h2
  rw [h2]
  exact h3

theorem resp_codeElem (hJ : OwnNames nm J) (e : CodeElem) : Resp nm J e.qualify := by
  refine ⟨fun h i => (steps_codeElem e h i).evolves, ?_⟩
  cases e with
  | line f p =>
    intro h i h1 i1 ht a h' i' hx hj
    have sf := ht.same.packages
    simp only [CodeElem.qualify, sf.args] at hx ⊢
    cases hl : h.args p with
    | none => rw [hl] at hx; simp at hx
    | some l =>
      rw [hl] at hx
      dsimp only at hx ⊢
      obtain ⟨h2, h3, h4⟩ := alike_qualifyArgList h l i i1 ht.tables
      rw [sf.qualifyArgList]
      have e0 := Evolves.mono (Q := fun _ => True) (fun _ _ => trivial) (evolves_qualifyArgList h l i).1
      have e1 := Evolves.mono (Q := fun _ => True) (fun _ _ => trivial) (evolves_qualifyArgList h l i1).1
      rcases hq : qualifyArgList h l i with ⟨o, l', j⟩
      rcases hq1 : qualifyArgList h l i1 with ⟨o1, l1', j1⟩
      rw [hq] at h2 h3 h4 hx e0
      rw [hq1] at h2 h3 h4 e1
      simp only at h2 h3 h4 e0 e1
      subst h2 h3
      simp only [Prod.mk.injEq] at hx
      obtain ⟨rfl, rfl, rfl⟩ := hx
      refine ⟨_, _, rfl, ⟨?_, ht.same.files, ht.same.templs⟩, h4, e0.inv ht.inv, e1.inv ht.inv1, ?_⟩
      · conv_lhs => rw [ht.same.rest]
      · intro p t t1 hp hp1
        rcases ht.templs p t t1 hp hp1 with ⟨h5, h6⟩ | ⟨h5, h6, h7⟩
        · exact .inl ⟨e0.ext.dataStill h5, e1.ext.dataStill h6⟩
        · exact .inr ⟨h5, fun pk hpk hn => h6 pk hpk (e0.ext.isNew hn), h7⟩
  | templ p =>
    intro h i h1 i1 ht a h' i' hx hj
    simp only [CodeElem.qualify, QM.bind, QM.read, QM.lift, QM.modify, deref] at hx ⊢
    rcases ht.same.templs p with ⟨h2, h3⟩ | ⟨t, t1, h2, h3, h4, h5⟩
    · rw [h2] at hx; simp at hx
    · rw [h2] at hx
      rw [h3]
      dsimp only at hx ⊢
      rcases hq : qualifyTemplateData h t.data i with ⟨d | _ | _, j⟩ <;> rw [hq] at hx <;> dsimp only at hx
      · simp only [Prod.mk.injEq] at hx
        obtain ⟨-, rfl, rfl⟩ := hx
        have key : ∃ d1 j1, qualifyTemplateData h1 t1.data i1 = (.ok d1, j1) ∧ SameTables j j1 ∧ Reordered d d1 ∧
            DataStill j d ∧ DataStill j1 d1 := by
          rcases ht.templs p t t1 h2 h3 with ⟨h6, h7⟩ | ⟨h6, h7, h8⟩
          · have h9 := h6 h i (.refl _)
            rw [hq] at h9
            simp only [Prod.mk.injEq, Outcome.ok.injEq] at h9
            obtain ⟨rfl, rfl⟩ := h9
            exact ⟨_, _, h7 h1 i1 (.refl _), ht.tables, h5, h6, h7⟩
          · obtain ⟨d1, j1, g1, g2, g3⟩ := twin_qualifyTemplateData (h1 := h1) hJ ht.inv ht.inv1 ht.tables h5 h6 h8 h7 hq hj
            exact ⟨d1, j1, g1, g2, g3, qualifyTemplateData_still h6.noSpecs hq, qualifyTemplateData_still h8.noSpecs g1⟩
        obtain ⟨d1, j1, g1, g2, g3, g4, g5⟩ := key
        rw [g1]
        have e0 := runs_true (runs_qualifyTemplateData h t.data) i
        have e1 := runs_true (runs_qualifyTemplateData h1 t1.data) i1
        rw [hq] at e0
        rw [g1] at e1
        refine ⟨_, _, rfl, ⟨?_, ht.same.files, ?_⟩, g2, e0.inv ht.inv, e1.inv ht.inv1, ?_⟩
        · conv_lhs => rw [ht.same.rest]
        · intro q
          by_cases hqp : q = p
          · subst hqp
            exact .inr ⟨_, _, upd_same .., upd_same .., h4, g3⟩
          · dsimp only
            rw [upd_ne _ _ hqp, upd_ne _ _ hqp]
            exact ht.same.templs q
        · intro q u u1 hu hu1
          by_cases hqp : q = p
          · subst hqp
            simp only [upd_same, Option.some.injEq] at hu hu1
            subst hu hu1
            exact .inl ⟨g4, g5⟩
          · dsimp only at hu hu1
            rw [upd_ne _ _ hqp] at hu hu1
            rcases ht.templs q u u1 hu hu1 with ⟨h5, h6⟩ | ⟨h5, h6, h7⟩
            · exact .inl ⟨e0.ext.dataStill h5, e1.ext.dataStill h6⟩
            · exact .inr ⟨h5, fun pk hpk hn => h6 pk hpk (e0.ext.isNew hn), h7⟩
      · simp at hx
      · simp at hx

theorem resp_code (hJ : OwnNames nm J) (cb : CodeBlock) : Resp nm J (qualifyCode cb) :=
  .forEach (resp_codeElem hJ) cb

theorem resp_ifaceElem (e : IfaceElem) : Resp nm J e.qualify := by
  cases e with
  | embed p =>
    refine .bind (.read (fun _ _ _ => rfl) _) fun e => .bind (.lift ?_ (runs_embedQualify e)) fun r =>
      .modify (fun _ _ _ => rfl) (fun _ => rfl) (fun _ => rfl)
    exact .bind (alike_ensureImported _) fun _ => .pure _
  | method p =>
    refine .bind (.read (fun _ _ _ => rfl) _) fun e => .bind (.lift ?_ (runs_methodQualify e)) fun r =>
      .modify (fun _ _ _ => rfl) (fun _ => rfl) (fun _ => rfl)
    exact .bind (alike_qualifySignature true _) fun _ => .pure _

theorem resp_field {sub : Ptr → QM Unit} (hsub : ∀ p, Resp nm J (sub p)) (p : Ptr) :
    Resp nm J (qualifyField sub p) := by
  refine .bind (.read (fun _ _ _ => rfl) _) fun f => ?_
  cases f.type with
  | nil => exact .ret _
  | name t =>
    exact .bind (.lift (alike_ensureTypeImported t) (runs_ensureTypeImported t)) fun _ =>
      .modify (fun _ _ _ => rfl) (fun _ => rfl) (fun _ => rfl)
  | spec q => exact hsub q

theorem resp_spec : ∀ fuel p, Resp nm J (qualifySpec fuel p)
  | 0, _ => .hang
  | fuel + 1, p => by
    exact .bind (.read (fun _ _ _ => rfl) _) fun ts =>
      .bind (.lift (alike_ensureTypeImported _) (runs_ensureTypeImported _)) fun u =>
      .bind (.modify (fun _ _ _ => rfl) (fun _ => rfl) (fun _ => rfl)) fun _ =>
      .bind (.forEach (resp_field (resp_spec fuel)) _) fun _ => .forEach resp_ifaceElem _

theorem resp_value (hJ : OwnNames nm J) (fuel : Nat) (p : Ptr) : Resp nm J (qualifyValue fuel p) := by
  refine .bind (.read (fun _ _ _ => rfl) _) fun c => .bind ?_ fun t =>
    .bind (.modify (fun _ _ _ => rfl) (fun _ => rfl) (fun _ => rfl)) fun _ => ?_
  · cases c.type with
    | nil => exact .ret _
    | name t => exact .bind (.lift (alike_ensureTypeImported t) (runs_ensureTypeImported t)) fun _ => .ret _
    | spec q => exact .bind (resp_spec fuel q) fun _ => .ret _
  · cases c.init with
    | none => exact .ret _
    | some b => exact .bind (.read (fun _ _ _ => rfl) _) fun _ => resp_code hJ _

theorem resp_func (hJ : OwnNames nm J) (p : Ptr) : Resp nm J (qualifyFunc p) := by
  exact .bind (.read (fun _ _ _ => rfl) _) fun f =>
    .bind (.lift (alike_ensureAllTypesImported _) (runs_ensureAllTypesImported _)) fun s =>
    .bind (.modify (fun _ _ _ => rfl) (fun _ => rfl) (fun _ => rfl)) fun _ => resp_code hJ _

theorem resp_fileElem (hJ : OwnNames nm J) (fuel : Nat) (e : FileElem) : Resp nm J (e.qualify fuel) := by
  cases e with
  | values p => exact .bind (.read (fun _ _ _ => rfl) _) fun d => .forEach (resp_value hJ fuel) _
  | types p => exact .bind (.read (fun _ _ _ => rfl) _) fun d => .forEach (resp_spec fuel) _
  | func p => exact resp_func hJ p
end

/-! ### Rendering -/

section
variable {env : Env} {h h1 : Heap}

theorem twin_fprintf (hb : OrderBlind env) (s : SameButOrder h h1) (f : GoString) (l : List Arg) :
    fprintf env h1 f l = fprintf env h f l := by
  have : l.map (Arg.shown env.isPrint h1) = l.map (Arg.shown env.isPrint h) :=
    List.map_congr_left fun a _ => s.packages.shown _ a
  simp only [fprintf, this, hb.fmt h h1 s]

theorem twin_codeElemText (hb : OrderBlind env) (s : SameButOrder h h1) (e : CodeElem) :
    e.text env h1 = e.text env h := by
  cases e with
  | line f p => simp only [CodeElem.text, s.packages.args, twin_fprintf hb s]
  | templ p =>
    simp only [CodeElem.text, deref]
    rcases s.templs p with ⟨h2, h3⟩ | ⟨t, t1, h2, h3, h4, h5⟩
    · rw [h2, h3]; rfl
    · rw [h2, h3]
      show (match env.exec h1 t1.templ t1.data with | some s => Outcome.ok s | none => Outcome.panic) =
        (match env.exec h t.templ t.data with | some s => Outcome.ok s | none => Outcome.panic)
      rw [h4, hb.exec h h1 s _ _ _ h5]

theorem twin_codeText (hb : OrderBlind env) (s : SameButOrder h h1) (cb : CodeBlock) :
    codeText env h1 cb = codeText env h cb := by
  have : CodeElem.text env h1 = CodeElem.text env h := funext (twin_codeElemText hb s)
  simp only [codeText, this]

theorem twin_valueSpecText (hb : OrderBlind env) (s : SameButOrder h h1) (c : ValueSpec) (b : Bool) :
    c.text env h1 b = c.text env h b := by
  simp only [ValueSpec.text, s.packages.blocks, twin_codeText hb s, twin_fprintf hb s]

theorem twin_valueDeclText (hb : OrderBlind env) (s : SameButOrder h h1) (d : ValueDecl) :
    d.text env h1 = d.text env h := by
  simp only [ValueDecl.text, s.packages.values, twin_valueSpecText hb s]

theorem twin_ifaceElemText (s : SameButOrder h h1) (e : IfaceElem) : e.text env h1 = e.text env h := by
  cases e <;> simp only [IfaceElem.text, s.packages.embeds, s.packages.methods]

mutual
theorem twin_underlyingText (hb : OrderBlind env) (s : SameButOrder h h1) : ∀ t, underlyingText env h1 t = underlyingText env h t
  | .struct fs => by simp only [underlyingText, twin_fieldTypesText hb s fs]
  | .interface ms es => by simp only [underlyingText]
  | .nil => by simp only [underlyingText]
  | .basic _ => by simp only [underlyingText]
  | .named _ => by simp only [underlyingText]
  | .ptr _ => by simp only [underlyingText]
  | .slice _ => by simp only [underlyingText]
  | .array _ _ => by simp only [underlyingText]
  | .map _ _ => by simp only [underlyingText]
  | .chan _ _ => by simp only [underlyingText]
  | .func _ => by simp only [underlyingText]
theorem twin_fieldTypesText (hb : OrderBlind env) (s : SameButOrder h h1) : ∀ t, fieldTypesText env h1 t = fieldTypesText env h t
  | [] => rfl
  | ⟨n, t, tag⟩ :: l => by
    have h2 := twin_fieldTypesText hb s l
    have h3 := twin_underlyingText hb s t
    cases t <;> simp only [fieldTypesText, h2, h3, twin_fprintf hb s]
end

theorem twin_fieldText (hb : OrderBlind env) (s : SameButOrder h h1) {sub sub1 : TypeSpec → Outcome GoString}
    (hsub : sub1 = sub) (f : FieldSpec) : f.text env h1 sub1 = f.text env h sub := by
  subst hsub
  have : fieldTypeText env h1 sub1 f.type = fieldTypeText env h sub1 f.type := by
    cases f.type <;> simp only [fieldTypeText, twin_underlyingText hb s, twin_fprintf hb s, s.packages.types,
      s.packages.typeSymbol]
  simp only [FieldSpec.text, this]

theorem twin_writeUnderlying (hb : OrderBlind env) (s : SameButOrder h h1) : ∀ fuel,
    writeUnderlying env h1 fuel = writeUnderlying env h fuel
  | 0 => rfl
  | fuel + 1 => by
    funext t
    have h2 := twin_writeUnderlying hb s fuel
    have h3 : IfaceElem.text env h1 = IfaceElem.text env h := funext fun e => twin_ifaceElemText s e
    simp only [writeUnderlying, s.packages.fields, twin_fieldText hb s h2, h3]

theorem twin_fileElemText (hb : OrderBlind env) (s : SameButOrder h h1) (fuel : Nat) (e : FileElem) :
    e.text env h1 fuel = e.text env h fuel := by
  cases e with
  | values p => simp only [FileElem.text, s.packages.valueDecls, twin_valueDeclText hb s]
  | types p =>
    simp only [FileElem.text, s.packages.typeDecls, TypeDecl.text, s.packages.types, TypeSpec.text, twin_writeUnderlying hb s]
  | func p => simp only [FileElem.text, s.packages.funcs, FuncSpec.text, twin_codeText hb s]

theorem twin_fileText (hb : OrderBlind env) (s : SameButOrder h h1) (fuel : Nat) {f f1 : GoFile}
    (hf : f1 = { f with imports := f1.imports }) (hs : f1.imports.importSpecs = f.imports.importSpecs) :
    f1.text env h1 fuel = f.text env h fuel := by
  have : FileElem.text env h1 fuel = FileElem.text env h fuel := funext (twin_fileElemText hb s fuel)
  rw [hf]
  simp only [GoFile.text, this, hs, GoFile.packageClause]
end

/-- If the first run returns and gives all packages their own names, then the second writes the same. -/
theorem twin_renderFile {nm : GoString → Option GoString} {env : Env} (hb : OrderBlind env) {fuel : Nat} {p : Ptr} {h h1 h' : Heap}
    {f f1 f' : GoFile} {text : GoString} (hf : h.files p = some f) (hf1 : h1.files p = some f1)
    (ht : Twin nm h f.imports h1 f1.imports) (hr : renderFile env fuel p h = (.ok text, h'))
    (hf' : h'.files p = some f')
    (hnames : ∀ p d n, nm p = some n → f'.imports.importsByPath.get p = some d → d.packageName = baseName ⟨p, n⟩) :
    ∃ h1', renderFile env fuel p h1 = (.ok text, h1') ∧ SameButOrder h' h1' := by
  unfold renderFile at hr
  rcases hq : qualifyFile fuel p h with ⟨_ | _ | _, h2⟩ <;> rw [hq] at hr <;> simp only [Prod.mk.injEq, reduceCtorEq, false_and] at hr
  obtain ⟨hr, rfl⟩ := hr
  have hfe : f1 = { f with imports := f1.imports } := by
    rcases ht.same.files p with ⟨h3, -⟩ | ⟨g, g1, h3, h4, h5, h6⟩
    · rw [hf] at h3; simp at h3
    · rw [hf] at h3; rw [hf1] at h4
      cases h3; cases h4; exact h5
  unfold qualifyFile at hq
  rw [hf] at hq
  dsimp only at hq
  rcases hx : QM.forEach (FileElem.qualify fuel) f.elements h f.imports with ⟨o, g, j⟩
  rw [hx] at hq
  simp only [Prod.mk.injEq] at hq
  obtain ⟨rfl, rfl⟩ := hq
  simp only [upd_same, Option.some.injEq] at hf'
  subst hf'
  have hev := (steps_fileElems fuel f.elements h f.imports).evolves
  rw [hx] at hev
  have hJ : OwnNames nm j := ⟨hev.inv ht.inv, hnames⟩
  have hresp := Resp.forEach (resp_fileElem hJ fuel) f.elements
  obtain ⟨g1, j1, hx1, ht'⟩ := hresp.run ht hx (.refl _)
  have hel : f1.elements = f.elements := by rw [hfe]
  have hsame : SameButOrder { g with files := upd g.files p { f with imports := j } }
      { g1 with files := upd g1.files p { f1 with imports := j1 } } := by
    refine ⟨?_, fun q => ?_, ht'.same.templs⟩
    · conv_lhs => rw [ht'.same.rest]
    · by_cases hqp : q = p
      · subst hqp
        refine .inr ⟨_, _, upd_same .., upd_same .., ?_, ht'.tables⟩
        rw [hfe]
      · dsimp only
        rw [upd_ne _ _ hqp, upd_ne _ _ hqp]
        exact ht'.same.files q
  refine ⟨_, ?_, hsame⟩
  unfold renderFile qualifyFile
  rw [hf1]
  dsimp only
  rw [← hel] at hx1
  rw [hx1]
  dsimp only [Outcome.bind, deref]
  rw [upd_same]
  simp only [deref, upd_same] at hr
  simp only [Prod.mk.injEq, and_true]
  refine Eq.trans ?_ hr
  refine twin_fileText hb hsame fuel (f := { f with imports := j }) (f1 := { f1 with imports := j1 }) (by rw [hfe]) ?_
  exact importSpecs_eq_of_get ht'.inv1 ht'.inv ht'.tables.byPath

end Gopoet
