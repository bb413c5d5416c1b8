import Verif.Proof.DataLemmas
import Verif.Props.Imports
/-! What qualification does to the imports: it registers the packages that are mentioned, in order. -/

namespace Gopoet
open Imports

/-- When `x` returns, the effect is that the packages are registered in the given order. -/
def Effect {α} (l : List Package) (x : IM α) : Prop :=
  ∀ i a j, x i = (.ok a, j) → j = i.after (registerAll l)

namespace Effect
variable {α β : Type}

theorem pure (a : α) : Effect [] (pure a : IM α) := by
  intro i b j h
  obtain ⟨-, rfl⟩ := pure_eq_ok h
  rfl

theorem panic {l : List Package} : Effect l (IM.panic : IM α) := by
  intro i a j h
  simp at h

theorem lift (o : Outcome α) : Effect [] (IM.lift o) := by
  intro i b j h
  obtain ⟨-, rfl⟩ := lift_eq_ok h
  rfl

theorem ite {l : List Package} {c : Prop} [Decidable c] {x y : IM α} (hx : Effect l x) (hy : Effect l y) :
    Effect l (if c then x else y) := by split <;> assumption

theorem bind {l l' : List Package} {x : IM α} {f : α → IM β} (hx : Effect l x) (hf : ∀ a, Effect l' (f a)) :
    Effect (l ++ l') (x >>= f) := by
  intro i b k h
  obtain ⟨a, j, h1, h2⟩ := IM.bind_eq_ok h
  obtain rfl := hx _ _ _ h1
  obtain rfl := hf _ _ _ _ h2
  simp [registerAll, Imports.after]

theorem bindQ {l : List Package} {x : IM α} {f : α → IM β} (hx : Effect l x) (hf : ∀ a, Effect [] (f a)) :
    Effect l (x >>= f) := by
  have := bind hx hf
  rwa [List.append_nil] at this

theorem bind_lift {l : List Package} {o : Outcome α} {f : α → IM β} (hf : ∀ a, o = .ok a → Effect l (f a)) :
    Effect l (IM.lift o >>= f) := by
  intro i b k h
  obtain ⟨a, j, h1, h2⟩ := IM.bind_eq_ok h
  obtain ⟨ho, rfl⟩ := lift_eq_ok h1
  exact hf a ho _ _ _ h2

theorem cast {l l' : List Package} {x : IM α} (hx : Effect l x) (h : l = l') : Effect l' x := h ▸ hx

end Effect

theorem effect_registerPackage (p : Package) : Effect [p] (registerPackage p) := by
  refine .bindQ ?_ fun _ => .pure _
  intro i a j h
  simp [registerAll, Imports.after, Call.exec, h]

theorem packagesOf_append (l l' : List Symbol) : packagesOf (l ++ l') = packagesOf l ++ packagesOf l' := by
  simp [packagesOf]

theorem effect_qualify (s : Symbol) : Effect (packagesOf [s]) (qualify s true) := by
  unfold qualify
  by_cases hb : s.package.name = [] ∧ s.package.importPath = []
  · rw [if_pos hb]
    have : packagesOf [s] = [] := by
      obtain ⟨⟨p, n⟩, m⟩ := s
      simp only at hb
      simp [packagesOf, hb.1, hb.2]
    rw [this]
    exact .pure _
  · rw [if_neg hb]
    have : packagesOf [s] = [s.package] := by
      obtain ⟨⟨p, n⟩, m⟩ := s
      simp only at hb
      simp only [packagesOf, List.map_cons, List.map_nil, List.filter_cons, List.filter_nil]
      rw [if_pos]
      simp only [ne_eq, Package.mk.injEq, decide_not, Bool.not_eq_true', decide_eq_false_iff_not]
      exact fun h => hb h.symm
    rw [this]
    refine .bindQ ?_ fun _ => .ite (.pure _) (.pure _)
    intro i a j h
    simp [registerAll, Imports.after, Call.exec, registerImportForPackage, registerImport, h]

theorem effect_qualifySymbols : ∀ l, Effect (packagesOf l) (qualifySymbols true l)
  | [] => .pure _
  | s :: l => by
    rw [qualifySymbols]
    exact (Effect.bind (effect_qualify s) fun _ => .bindQ (effect_qualifySymbols l) fun _ => .pure _).cast
      (packagesOf_append [s] l).symm

mutual
theorem effect_qualifyType : ∀ t, Effect (packagesOf t.symbols) (qualifyType true t)
  | .nil => by rw [qualifyType]; exact .panic
  | .basic k => by rw [qualifyType]; exact .pure _
  | .named s => by
    rw [qualifyType]
    exact .bindQ (effect_qualify s) fun _ => .ite (.pure _) (.pure _)
  | .ptr e => by
    rw [qualifyType]
    exact .bindQ (effect_qualifyType e) fun _ => .ite (.bindQ (.lift _) fun _ => .pure _) (.pure _)
  | .slice e => by
    rw [qualifyType]
    exact .bindQ (effect_qualifyType e) fun _ => .ite (.bindQ (.lift _) fun _ => .pure _) (.pure _)
  | .array e n => by
    rw [qualifyType]
    exact .bindQ (effect_qualifyType e) fun _ => .ite (.bindQ (.lift _) fun _ => .pure _) (.pure _)
  | .map e k => by
    rw [qualifyType]
    exact (Effect.bind (effect_qualifyType k) fun _ => .bindQ (effect_qualifyType e) fun _ =>
      .ite (.bindQ (.lift _) fun _ => .pure _) (.pure _)).cast (packagesOf_append _ _).symm
  | .chan e d => by
    rw [qualifyType]
    exact .bindQ (effect_qualifyType e) fun _ => .ite (.bindQ (.lift _) fun _ => .pure _) (.pure _)
  | .func s => by
    rw [qualifyType]
    exact .bindQ (effect_qualifySignature s) fun _ => .ite (.bindQ (.lift _) fun _ => .pure _) (.pure _)
  | .struct fs => by
    rw [qualifyType]
    exact .bindQ (effect_qualifyFields fs) fun _ => .ite (.pure _) (.pure _)
  | .interface ms es => by
    rw [qualifyType]
    exact (Effect.bind (effect_qualifySymbols es) fun _ => .bindQ (effect_qualifyMethods ms) fun _ =>
      .ite (.pure _) (.pure _)).cast (packagesOf_append _ _).symm
theorem effect_qualifySignature : ∀ s : Signature, Effect (packagesOf s.symbols) (qualifySignature true s)
  | ⟨args, results, v⟩ => by
    rw [qualifySignature]
    exact (Effect.bind (effect_qualifyArgs args) fun _ => .bindQ (effect_qualifyArgs results) fun _ =>
      .ite (.pure _) (.pure _)).cast (packagesOf_append _ _).symm
theorem effect_qualifyArgs : ∀ l, Effect (packagesOf (symbolsArgs l)) (qualifyArgs true l)
  | [] => by rw [qualifyArgs]; exact .pure _
  | ⟨n, t⟩ :: l => by
    rw [qualifyArgs]
    exact (Effect.bind (effect_qualifyType t) fun _ => .bindQ (effect_qualifyArgs l) fun _ => .pure _).cast
      (packagesOf_append _ _).symm
theorem effect_qualifyFields : ∀ l, Effect (packagesOf (symbolsFields l)) (qualifyFields true l)
  | [] => by rw [qualifyFields]; exact .pure _
  | ⟨n, t, g⟩ :: l => by
    rw [qualifyFields]
    exact (Effect.bind (effect_qualifyType t) fun _ => .bindQ (effect_qualifyFields l) fun _ => .pure _).cast
      (packagesOf_append _ _).symm
theorem effect_qualifyMethods : ∀ l, Effect (packagesOf (symbolsMethods l)) (qualifyMethods true l)
  | [] => by rw [qualifyMethods]; exact .pure _
  | ⟨n, s⟩ :: l => by
    rw [qualifyMethods]
    exact (Effect.bind (effect_qualifySignature s) fun _ => .bindQ (effect_qualifyMethods l) fun _ => .pure _).cast
      (packagesOf_append _ _).symm
end

theorem effect_qualifyConverted (acc : Accepts) (o : TVal) (t : Outcome TypeName) :
    Effect (convertedMentions t) (qualifyConverted acc o t) :=
  .bind_lift fun a ht => by
    subst ht
    exact .bindQ (effect_qualifyType a) fun _ => .ite (.pure _) (.pure _)

theorem effect_qualifyObject (acc : Accepts) (o : TVal) (s : SymbolOrMethodRef) :
    Effect (objectMentions (.ok s)) (qualifyObject acc o s) := by
  cases s <;> exact .bindQ (effect_qualify _) fun _ => .ite (.pure _) (.pure _)

theorem mentions_iface (h : Heap) (acc : Accepts) {v : TVal} (hv : v.isConv = false) :
    (TVal.iface acc v).mentions h = v.mentions h := by
  cases v <;> simp only [TVal.isConv, Bool.true_eq_false] at hv <;> rw [TVal.mentions] <;> simp

mutual
theorem effect_qualifyData (h : Heap) : ∀ (addr : Bool) (v : TVal), 
    Effect (v.mentions h) (qualifyData h addr v)
  | addr, .iface acc v => by
    by_cases hc : v.isConv = true
    · cases v <;> simp only [TVal.isConv, Bool.false_eq_true] at hc
      case typeName t =>
        rw [qualifyData, TVal.mentions]; exact effect_qualifyConverted _ _ (.ok t)
      case reflectType t =>
        rw [qualifyData, TVal.mentions]; exact effect_qualifyConverted _ _ _
      case goType t =>
        rw [qualifyData, TVal.mentions]; exact effect_qualifyConverted _ _ _
      case goObject o =>
        rw [qualifyData, TVal.mentions]
        exact .bind_lift fun a ha => by rw [ha]; exact effect_qualifyObject _ _ _
      case goPackage g =>
        rw [qualifyData, TVal.mentions]
        exact .bind_lift fun a ha => by
          cases ha
          exact .bindQ (effect_registerPackage _) fun _ => .ite (.pure _) (.pure _)
    · have hc : v.isConv = false := by simpa using hc
      rw [qualifyData_iface _ _ _ hc, mentions_iface _ _ hc]
      exact .bindQ (effect_qualifyData h false v) fun r => .pure _
  | addr, .package p => by
    rw [qualifyData, TVal.mentions]
    exact .bindQ (effect_registerPackage _) fun _ => .ite (.pure _) (.pure _)
  | addr, .symbol s => by
    rw [qualifyData, TVal.mentions]
    exact .bindQ (effect_qualify s) fun _ => .pure _
  | addr, .mref m => by
    rw [qualifyData, TVal.mentions]
    exact .bindQ (effect_qualify _) fun _ => .pure _
  | addr, .signature s => by
    rw [qualifyData, TVal.mentions]
    exact .bindQ (effect_qualifySignature s) fun _ => .pure _
  | addr, .spec r => by
    rw [qualifyData, TVal.mentions, SpecRef.package]
    refine .bind_lift fun q hq => ?_
    rw [hq]
    cases q with
    | none => exact .pure _
    | some p =>
      refine .bind_lift fun f hf => ?_
      obtain hf := deref_eq_ok hf
      dsimp only
      rw [hf]
      exact .bindQ (effect_registerPackage _) fun _ => .ite (.pure _) (.pure _)
  | addr, .specCopy _ _ => by
    rw [qualifyData, TVal.mentions]
    exact .bindQ (effect_registerPackage _) fun _ => .ite (.pure _) (.pure _)
  | addr, .embed e => by
    rw [qualifyData, TVal.mentions]
    exact .bindQ (.bindQ (effect_qualify _) fun _ => .pure _) fun _ => .pure _
  | addr, .method m => by
    rw [qualifyData, TVal.mentions]
    exact .bindQ (.bindQ (effect_qualifySignature _) fun _ => .pure _) fun _ => .pure _
  | addr, .ptr v => by
    rw [qualifyData, TVal.mentions]
    exact .bindQ (effect_qualifyData h true v) fun _ => .pure _
  | addr, .struct fs => by
    rw [qualifyData, TVal.mentions]
    exact .bindQ (effect_qualifyDataFields h addr false false fs) fun _ => .pure _
  | addr, .array vs => by
    rw [qualifyData, TVal.mentions]
    exact .bindQ (effect_qualifyDataElems h addr addr false vs) fun _ => .pure _
  | addr, .slice vs => by
    rw [qualifyData, TVal.mentions]
    exact .bindQ (effect_qualifyDataElems h true true false vs) fun _ => .pure _
  | addr, .map es => by
    rw [qualifyData, TVal.mentions]
    exact .bindQ (effect_qualifyDataEntries h es) fun _ =>
      .ite (.pure _) (.pure _)
  | addr, .scalar _ => by
    rw [qualifyData, TVal.mentions]
    · exact .pure _
    all_goals simp
  | addr, .imports => by
    rw [qualifyData, TVal.mentions]
    · exact .pure _
    all_goals simp
  | addr, .typeName _ => by
    rw [qualifyData, TVal.mentions]
    · exact .pure _
    all_goals simp
  | addr, .reflectType _ => by
    rw [qualifyData, TVal.mentions]
    · exact .pure _
    all_goals simp
  | addr, .goType _ => by
    rw [qualifyData, TVal.mentions]
    · exact .pure _
    all_goals simp
  | addr, .goObject _ => by
    rw [qualifyData, TVal.mentions]
    · exact .pure _
    all_goals simp
  | addr, .goPackage _ => by
    rw [qualifyData, TVal.mentions]
    · exact .pure _
    all_goals simp
theorem effect_qualifyDataFields (h : Heap) (addr : Bool) : ∀ (changed hidden : Bool) (fs : List (Bool × TVal)),
    Effect (mentionsFields h fs) (qualifyDataFields h addr changed hidden fs)
  | changed, hidden, [] => by
    rw [qualifyDataFields]
    exact .pure _
  | changed, hidden, (e, v) :: fs => by
    rw [qualifyDataFields, mentionsFields]
    refine .ite .panic (.bind (effect_qualifyData h addr v) fun r => ?_)
    exact .ite .panic (.bindQ (effect_qualifyDataFields h addr _ _ fs) fun _ => .pure _)
theorem effect_qualifyDataElems (h : Heap) (addr sl : Bool) : ∀ (changed : Bool) (vs : List TVal),
    Effect (mentionsElems h vs) (qualifyDataElems h addr sl changed vs)
  | changed, [] => by
    rw [qualifyDataElems]
    exact .pure _
  | changed, v :: vs => by
    rw [qualifyDataElems, mentionsElems]
    refine .bind (effect_qualifyData h addr v) fun r => ?_
    exact .ite .panic (.bindQ (effect_qualifyDataElems h addr sl _ vs) fun _ => .pure _)
theorem effect_qualifyDataEntries (h : Heap) : ∀ (es : List (TVal × TVal)),
    Effect (mentionsEntries h es) (qualifyDataEntries h es)
  | [] => by
    rw [qualifyDataEntries]
    exact .pure _
  | (a, v) :: es => by
    rw [qualifyDataEntries, mentionsEntries]
    refine .bind (effect_qualifyData h false a) fun _ => ?_
    refine .bind (effect_qualifyData h false v) fun _ => ?_
    exact .ite .panic (.bindQ (effect_qualifyDataEntries h es) fun _ => .pure _)
end

theorem effect_qualifyTemplateData (h : Heap) (v : TVal) :
    Effect ((TVal.iface acceptsAll v).mentions h) (qualifyTemplateData h v) := by
  refine .bindQ (effect_qualifyData h true _) fun r => ?_
  obtain ⟨r, c⟩ := r
  cases r <;> exact .pure _

/-! ### Reordering -/

theorem mentionsFields_append (h : Heap) (a b : List (Bool × TVal)) : mentionsFields h (a ++ b) = mentionsFields h a ++ mentionsFields h b := by
  induction a with
  | nil => rfl
  | cons x a ih => obtain ⟨e, v⟩ := x; simp [mentionsFields, ih]

theorem mentionsElems_append (h : Heap) (a b : List TVal) : mentionsElems h (a ++ b) = mentionsElems h a ++ mentionsElems h b := by
  induction a with
  | nil => rfl
  | cons x a ih => simp [mentionsElems, ih]

theorem mentionsEntries_eq (h : Heap) (es : List (TVal × TVal)) :
    mentionsEntries h es = es.flatMap fun e => e.1.mentions h ++ e.2.mentions h := by
  induction es with
  | nil => rfl
  | cons x a ih => obtain ⟨e, v⟩ := x; simp [mentionsEntries, ih]

theorem Reordered.conv {v v' : TVal} (h : Reordered v v') : v'.isConv = v.isConv ∧ (v.isConv = true → v' = v) := by
  induction h with
  | refl => exact ⟨rfl, fun _ => rfl⟩
  | trans _ _ h1 h2 => exact ⟨h2.1.trans h1.1, fun hc => (h2.2 (h1.1.trans hc)).trans (h1.2 hc)⟩
  | _ => exact ⟨rfl, by simp [TVal.isConv]⟩

theorem Reordered.mentions (H : Heap) {v v' : TVal} (h : Reordered v v') : (v.mentions H).Perm (v'.mentions H) := by
  induction h with
  | refl => exact .refl _
  | trans _ _ h1 h2 => exact h1.trans h2
  | perm hp =>
    simp only [TVal.mentions, mentionsEntries_eq]
    exact hp.flatMap_right _
  | @iface acc v v' hr ih =>
    by_cases hc : v.isConv = true
    · rw [hr.conv.2 hc]
    · have hc : v.isConv = false := by simpa using hc
      rw [mentions_iface _ _ hc, mentions_iface _ _ (hr.conv.1.trans hc)]
      exact ih
  | ptr _ ih => simpa only [TVal.mentions] using ih
  | field _ ih =>
    simp only [TVal.mentions, mentionsFields_append, mentionsFields]
    exact (ih.append_right _).append_left _
  | array _ ih =>
    simp only [TVal.mentions, mentionsElems_append, mentionsElems]
    exact (ih.append_right _).append_left _
  | slice _ ih =>
    simp only [TVal.mentions, mentionsElems_append, mentionsElems]
    exact (ih.append_right _).append_left _
  | key _ ih =>
    simp only [TVal.mentions, mentionsEntries_eq, List.flatMap_append, List.flatMap_cons]
    exact ((ih.append_right _).append_right _).append_left _
  | value _ ih =>
    simp only [TVal.mentions, mentionsEntries_eq, List.flatMap_append, List.flatMap_cons]
    exact ((ih.append_left _).append_right _).append_left _

theorem requalifyFields_append (h : Heap) (n : GoString → GoString) (a b : List (Bool × TVal)) :
    requalifyFields h n (a ++ b) = requalifyFields h n a ++ requalifyFields h n b := by
  induction a with
  | nil => rfl
  | cons x a ih => obtain ⟨e, v⟩ := x; simp [requalifyFields, ih]

theorem requalifyElems_append (h : Heap) (n : GoString → GoString) (a b : List TVal) :
    requalifyElems h n (a ++ b) = requalifyElems h n a ++ requalifyElems h n b := by
  induction a with
  | nil => rfl
  | cons x a ih => simp [requalifyElems, ih]

theorem requalifyEntries_eq (h : Heap) (n : GoString → GoString) (es : List (TVal × TVal)) :
    requalifyEntries h n es = es.map fun e => (e.1.requalify h n, e.2.requalify h n) := by
  induction es with
  | nil => rfl
  | cons x a ih => obtain ⟨e, v⟩ := x; simp [requalifyEntries, ih]

theorem Reordered.requalify (H : Heap) (n : GoString → GoString) {v v' : TVal} (h : Reordered v v') :
    Reordered (v.requalify H n) (v'.requalify H n) := by
  induction h with
  | refl => exact .refl _
  | trans _ _ h1 h2 => exact h1.trans h2
  | perm hp =>
    simp only [TVal.requalify, requalifyEntries_eq]
    exact .perm (hp.map _)
  | @iface acc v v' hr ih =>
    by_cases hc : v.isConv = true
    · rw [hr.conv.2 hc]; exact .refl _
    · have hc : v.isConv = false := by simpa using hc
      rw [requalify_iface _ _ _ hc, requalify_iface _ _ _ (hr.conv.1.trans hc)]
      exact .iface ih
  | ptr _ ih => simp only [TVal.requalify]; exact .ptr ih
  | field _ ih =>
    simp only [TVal.requalify, requalifyFields_append, requalifyFields]
    exact .field ih
  | array _ ih =>
    simp only [TVal.requalify, requalifyElems_append, requalifyElems]
    exact .array ih
  | slice _ ih =>
    simp only [TVal.requalify, requalifyElems_append, requalifyElems]
    exact .slice ih
  | key _ ih =>
    simp only [TVal.requalify, requalifyEntries_eq, List.map_append, List.map_cons]
    exact .key ih
  | value _ ih =>
    simp only [TVal.requalify, requalifyEntries_eq, List.map_append, List.map_cons]
    exact .value ih

/-! ### Data without specs -/

mutual
/-- For data without specs the memory is not looked at. -/
theorem memory_of_noSpecs (h h' : Heap) (n : GoString → GoString) : ∀ v : TVal, v.noSpecs = true →
    v.specsPresent h = true ∧ v.mentions h = v.mentions h' ∧ v.requalify h n = v.requalify h' n
  | .iface acc v, hs => by
    have ih := memory_of_noSpecs h h' n v (by simpa [TVal.noSpecs] using hs)
    refine ⟨by simpa [TVal.specsPresent] using ih.1, ?_⟩
    by_cases hc : v.isConv = true
    · cases v <;> simp only [TVal.isConv, Bool.false_eq_true] at hc <;> simp only [TVal.mentions, TVal.requalify, and_self]
    · have hc : v.isConv = false := by simpa using hc
      simp only [mentions_iface _ _ hc, requalify_iface _ _ _ hc, ih, and_self]
  | .ptr v, hs => by
    have ih := memory_of_noSpecs h h' n v (by simpa [TVal.noSpecs] using hs)
    simpa only [TVal.specsPresent, TVal.mentions, TVal.requalify, TVal.ptr.injEq] using ih
  | .struct fs, hs => by
    have ih := memory_of_noSpecsFields h h' n fs (by simpa [TVal.noSpecs] using hs)
    simpa only [TVal.specsPresent, TVal.mentions, TVal.requalify, TVal.struct.injEq] using ih
  | .array vs, hs => by
    have ih := memory_of_noSpecsElems h h' n vs (by simpa [TVal.noSpecs] using hs)
    simpa only [TVal.specsPresent, TVal.mentions, TVal.requalify, TVal.array.injEq] using ih
  | .slice vs, hs => by
    have ih := memory_of_noSpecsElems h h' n vs (by simpa [TVal.noSpecs] using hs)
    simpa only [TVal.specsPresent, TVal.mentions, TVal.requalify, TVal.slice.injEq] using ih
  | .map es, hs => by
    have ih := memory_of_noSpecsEntries h h' n es (by simpa [TVal.noSpecs] using hs)
    simpa only [TVal.specsPresent, TVal.mentions, TVal.requalify, TVal.map.injEq] using ih
  | .spec _, hs => by simp [TVal.noSpecs] at hs
  | .specCopy _ _, hs => by simp [TVal.noSpecs] at hs
  | .package _, _ | .symbol _, _ | .mref _, _ | .signature _, _ | .embed _, _ | .method _, _ => by
    simp [TVal.specsPresent, TVal.mentions, TVal.requalify]
  | .scalar _, _ | .imports, _ | .typeName _, _ | .reflectType _, _ | .goType _, _ | .goObject _, _
  | .goPackage _, _ => by simp [TVal.specsPresent, TVal.mentions, TVal.requalify]
theorem memory_of_noSpecsFields (h h' : Heap) (n : GoString → GoString) : ∀ fs, noSpecsFields fs = true →
    specsPresentFields h fs = true ∧ mentionsFields h fs = mentionsFields h' fs ∧
      requalifyFields h n fs = requalifyFields h' n fs
  | [], _ => ⟨rfl, rfl, rfl⟩
  | (e, v) :: fs, hs => by
    simp only [noSpecsFields, Bool.and_eq_true] at hs
    obtain ⟨a1, a2, a3⟩ := memory_of_noSpecs h h' n v hs.1
    obtain ⟨b1, b2, b3⟩ := memory_of_noSpecsFields h h' n fs hs.2
    simp [specsPresentFields, mentionsFields, requalifyFields, a1, a2, a3, b1, b2, b3]
theorem memory_of_noSpecsElems (h h' : Heap) (n : GoString → GoString) : ∀ vs, noSpecsElems vs = true →
    specsPresentElems h vs = true ∧ mentionsElems h vs = mentionsElems h' vs ∧
      requalifyElems h n vs = requalifyElems h' n vs
  | [], _ => ⟨rfl, rfl, rfl⟩
  | v :: vs, hs => by
    simp only [noSpecsElems, Bool.and_eq_true] at hs
    obtain ⟨a1, a2, a3⟩ := memory_of_noSpecs h h' n v hs.1
    obtain ⟨b1, b2, b3⟩ := memory_of_noSpecsElems h h' n vs hs.2
    simp [specsPresentElems, mentionsElems, requalifyElems, a1, a2, a3, b1, b2, b3]
theorem memory_of_noSpecsEntries (h h' : Heap) (n : GoString → GoString) : ∀ es, noSpecsEntries es = true →
    specsPresentEntries h es = true ∧ mentionsEntries h es = mentionsEntries h' es ∧
      requalifyEntries h n es = requalifyEntries h' n es
  | [], _ => ⟨rfl, rfl, rfl⟩
  | (k, v) :: es, hs => by
    simp only [noSpecsEntries, Bool.and_eq_true] at hs
    obtain ⟨c1, c2, c3⟩ := memory_of_noSpecs h h' n k hs.1.1
    obtain ⟨a1, a2, a3⟩ := memory_of_noSpecs h h' n v hs.1.2
    obtain ⟨b1, b2, b3⟩ := memory_of_noSpecsEntries h h' n es hs.2
    simp [specsPresentEntries, mentionsEntries, requalifyEntries, a1, a2, a3, b1, b2, b3, c1, c2, c3]
end

theorem mentions_of_noSpecs (h h' : Heap) {v : TVal} (hs : v.noSpecs = true) :
    (TVal.iface acceptsAll v).mentions h = (TVal.iface acceptsAll v).mentions h' :=
  (memory_of_noSpecs h h' (fun p => p) (.iface acceptsAll v) (by simpa [TVal.noSpecs] using hs)).2.1

theorem requalify_of_noSpecs (h h' : Heap) (n : GoString → GoString) {v : TVal} (hs : v.noSpecs = true) :
    (TVal.iface acceptsAll v).requalify h n = (TVal.iface acceptsAll v).requalify h' n :=
  (memory_of_noSpecs h h' n (.iface acceptsAll v) (by simpa [TVal.noSpecs] using hs)).2.2

end Gopoet
