import Verif.Proof.Independent
import Verif.Proof.NamedLemmas
/-! What the text of a file depends on. -/

namespace Gopoet
open Imports

/-! ### What is shown stays what is shown -/

theorem qualifySymOrRef_shows {orig : Arg} {sm : SymbolOrMethodRef} {i j : Imports} {a' : Arg}
    (h : qualifySymOrRef orig sm i = (.ok a', j)) : a' = orig ∨ ∀ g x, ¬ a'.Shows g x := by
  cases sm with
  | symbol s =>
    obtain ⟨s', i1, -, h2⟩ := IM.bind_eq_ok h
    cases h2
    exact .inr fun g x hx => by cases hx
  | method m =>
    obtain ⟨s', i1, -, h2⟩ := IM.bind_eq_ok h
    split at h2
    · cases h2; exact .inr fun g x hx => by cases hx
    · cases h2; exact .inl rfl

theorem qualifyArg_shows {h : Heap} {a a' : Arg} {i j : Imports} (hq : qualifyArg h a i = (.ok a', j)) :
    a' = a ∨ ∀ g x, ¬ a'.Shows g x := by
  cases a
  case str | int | ifaceEmbed | field | other => cases hq; exact .inl rfl
  case package | packagePtr =>
    obtain ⟨s', i1, -, h2⟩ := IM.bind_eq_ok hq
    split at h2
    · cases h2; exact .inr fun g x hx => by cases hx
    · cases h2; exact .inl rfl
  case symbol | symbolPtr | sig | sigPtr | typeName =>
    obtain ⟨s', i1, -, h2⟩ := IM.bind_eq_ok hq
    cases h2
    exact .inr fun g x hx => by cases hx
  case mref => exact qualifySymOrRef_shows (orig := .mref _) (sm := .method _) hq
  case mrefPtr => exact qualifySymOrRef_shows (orig := .mrefPtr _) (sm := .method _) hq
  case value | typeSpec | ifaceMethod | func | goObject =>
    obtain ⟨s', i1, -, h2⟩ := IM.bind_eq_ok hq
    exact qualifySymOrRef_shows h2
  case reflectType | goType | goPackage =>
    obtain ⟨s', i1, -, h2⟩ := IM.bind_eq_ok hq
    obtain ⟨s', i1, -, h2⟩ := IM.bind_eq_ok h2
    cases h2
    exact .inr fun g x hx => by cases hx

theorem qualifyArgList_shows {h : Heap} : ∀ {l l' : List Arg} {i j : Imports} {o},
    qualifyArgList h l i = (o, l', j) → ∀ a' ∈ l', a' ∈ l ∨ ∀ g x, ¬ a'.Shows g x
  | [], _, _, _, _, hq => by cases hq; simp
  | a :: l, l', i, j, o, hq => by
    rw [qualifyArgList] at hq
    rcases ha : qualifyArg h a i with ⟨b | _ | _, i1⟩ <;> rw [ha] at hq <;> dsimp only at hq
    · rcases hl : qualifyArgList h l i1 with ⟨o1, l1, j1⟩
      rw [hl] at hq
      cases hq
      intro a' ha'
      rcases List.mem_cons.1 ha' with rfl | ha'
      · rcases qualifyArg_shows ha with rfl | h1
        · exact .inl (by simp)
        · exact .inr h1
      · rcases qualifyArgList_shows hl a' ha' with h1 | h1
        · exact .inl (by simp [h1])
        · exact .inr h1
    · cases hq; exact fun a' ha' => .inl ha'
    · cases hq; exact fun a' ha' => .inl ha'

/-- Every spec in `w` is in `v`. -/
def SpecsFrom (v w : List (SpecRef × Option GoString)) : Prop := ∀ r o', (r, o') ∈ w → ∃ o, (r, o) ∈ v

theorem SpecsFrom.refl (v) : SpecsFrom v v := fun _ o h => ⟨o, h⟩
theorem SpecsFrom.nil (v) : SpecsFrom v [] := fun _ _ h => by cases h
theorem SpecsFrom.append {a b c d} (h1 : SpecsFrom a b) (h2 : SpecsFrom c d) : SpecsFrom (a ++ c) (b ++ d) := by
  intro r o h
  rcases List.mem_append.1 h with h | h
  · obtain ⟨o', h⟩ := h1 r o h; exact ⟨o', List.mem_append_left _ h⟩
  · obtain ⟨o', h⟩ := h2 r o h; exact ⟨o', List.mem_append_right _ h⟩
theorem SpecsFrom.trans {a b c} (h1 : SpecsFrom a b) (h2 : SpecsFrom b c) : SpecsFrom a c := by
  intro r o h
  obtain ⟨o', h⟩ := h2 r o h
  exact h1 r o' h

theorem qualifyConverted_specsFrom {acc : Accepts} {orig v : TVal} {t : Outcome TypeName} {i j : Imports} {c : Bool}
    (hq : qualifyConverted acc orig t i = (.ok (v, c), j)) : SpecsFrom orig.shownSpecs v.shownSpecs := by
  obtain ⟨t', i1, -, h2⟩ := IM.bind_eq_ok hq
  obtain ⟨⟨t2, c2⟩, i2, -, h3⟩ := IM.bind_eq_ok h2
  dsimp only at h3
  split at h3
  · cases h3; rw [TVal.shownSpecs]; exact .nil _
  · cases h3; exact .refl _

theorem qualifyObject_specsFrom {acc : Accepts} {orig v : TVal} {t : SymbolOrMethodRef} {i j : Imports} {c : Bool}
    (hq : qualifyObject acc orig t i = (.ok (v, c), j)) : SpecsFrom orig.shownSpecs v.shownSpecs := by
  cases t with
  | symbol s =>
    obtain ⟨t2, i2, -, h3⟩ := IM.bind_eq_ok hq
    split at h3
    · cases h3; exact .nil _
    · cases h3; exact .refl _
  | method s =>
    obtain ⟨t2, i2, -, h3⟩ := IM.bind_eq_ok hq
    split at h3
    · cases h3; exact .nil _
    · cases h3; exact .refl _

theorem inIface_specsFrom (v : TVal) : v.inIface.shownSpecs = v.shownSpecs := by
  cases v <;> rfl

theorem setMapIndex_specsFrom (k v : TVal) : ∀ m, SpecsFrom (shownSpecsEntries m ++ (k.shownSpecs ++ v.shownSpecs))
    (shownSpecsEntries (setMapIndex m k v))
  | [] => by rw [setMapIndex]; simp only [shownSpecsEntries, List.append_nil, List.nil_append]; exact .refl _
  | (k', v') :: m => by
    rw [setMapIndex]
    split
    · simp only [shownSpecsEntries]
      intro r o h
      refine ⟨o, ?_⟩
      simp only [List.mem_append] at h ⊢
      rcases h with (h | h) | h
      · exact .inl (.inl (.inl h))
      · exact .inr (.inr h)
      · exact .inl (.inr h)
    · simp only [shownSpecsEntries]
      rw [List.append_assoc]
      exact (SpecsFrom.refl _).append (setMapIndex_specsFrom k v m)

theorem foldl_specsFrom : ∀ (es m : List (TVal × TVal)), SpecsFrom (shownSpecsEntries m ++ shownSpecsEntries es)
    (shownSpecsEntries (es.foldl (fun m e => setMapIndex m e.1 e.2) m))
  | [], m => by simp only [List.foldl_nil, shownSpecsEntries, List.append_nil]; exact .refl _
  | (k, v) :: es, m => by
    rw [List.foldl_cons]
    refine SpecsFrom.trans ?_ (foldl_specsFrom es _)
    simp only [shownSpecsEntries]
    rw [← List.append_assoc]
    exact (setMapIndex_specsFrom k v m).append (.refl _)

mutual
theorem qualifyData_specsFrom (h : Heap) : ∀ (addr : Bool) (v : TVal), ∀ (i j : Imports) (w : TVal) (c : Bool),
    qualifyData h addr v i = (.ok (w, c), j) → SpecsFrom v.shownSpecs w.shownSpecs
  | addr, .iface acc v => by
    intro i j w c hq
    by_cases hc : v.isConv = true
    · cases v <;> try simp [TVal.isConv] at hc
      case typeName | reflectType | goType => exact qualifyConverted_specsFrom hq
      case goObject =>
        obtain ⟨t2, i2, -, h3⟩ := IM.bind_eq_ok hq
        exact qualifyObject_specsFrom h3
      case goPackage =>
        obtain ⟨t2, i2, -, h3⟩ := IM.bind_eq_ok hq
        obtain ⟨t3, i3, -, h4⟩ := IM.bind_eq_ok h3
        split at h4
        · cases h4; exact .nil _
        · cases h4; exact .refl _
    · rw [qualifyData_iface _ _ _ (by simpa using hc)] at hq
      obtain ⟨⟨v', c'⟩, i1, h1, h2⟩ := IM.bind_eq_ok hq
      cases h2
      rw [TVal.shownSpecs, TVal.shownSpecs]
      exact qualifyData_specsFrom h false v _ _ _ _ h1
  | _, .package _ => by
    intro i j w c hq
    obtain ⟨t2, i2, -, h3⟩ := IM.bind_eq_ok hq
    split at h3 <;> cases h3 <;> exact .nil _
  | _, .symbol _ => by intro i j w c hq; obtain ⟨t2, i2, -, h3⟩ := IM.bind_eq_ok hq; cases h3; exact .nil _
  | _, .mref _ => by intro i j w c hq; obtain ⟨t2, i2, -, h3⟩ := IM.bind_eq_ok hq; cases h3; exact .nil _
  | _, .signature _ => by intro i j w c hq; obtain ⟨⟨t2, c2⟩, i2, -, h3⟩ := IM.bind_eq_ok hq; cases h3; exact .nil _
  | _, .embed _ => by intro i j w c hq; obtain ⟨⟨t2, c2⟩, i2, -, h3⟩ := IM.bind_eq_ok hq; cases h3; exact .nil _
  | _, .method _ => by intro i j w c hq; obtain ⟨⟨t2, c2⟩, i2, -, h3⟩ := IM.bind_eq_ok hq; cases h3; exact .nil _
  | _, .spec r => by
    intro i j w c hq
    obtain ⟨o, i2, -, h3⟩ := IM.bind_eq_ok hq
    cases o with
    | none => cases h3; exact .refl _
    | some f =>
      obtain ⟨g, i3, -, h4⟩ := IM.bind_eq_ok h3
      obtain ⟨n, i4, -, h5⟩ := IM.bind_eq_ok h4
      split at h5
      · cases h5
        intro r' o' ho
        simp only [TVal.shownSpecs, List.mem_singleton, Prod.mk.injEq] at ho ⊢
        exact ⟨none, ho.1, rfl⟩
      · cases h5; exact .refl _
  | _, .specCopy r m => by
    intro i j w c hq
    obtain ⟨n, i4, -, h5⟩ := IM.bind_eq_ok hq
    split at h5
    · cases h5
      intro r' o' ho
      simp only [TVal.shownSpecs, List.mem_singleton, Prod.mk.injEq] at ho ⊢
      exact ⟨some m, ho.1, rfl⟩
    · cases h5; exact .refl _
  | _, .imports => by intro i j w c hq; cases hq; exact .refl _
  | _, .scalar _ => by intro i j w c hq; cases hq; exact .refl _
  | _, .typeName _ => by intro i j w c hq; cases hq; exact .refl _
  | _, .reflectType _ => by intro i j w c hq; cases hq; exact .refl _
  | _, .goType _ => by intro i j w c hq; cases hq; exact .refl _
  | _, .goObject _ => by intro i j w c hq; cases hq; exact .refl _
  | _, .goPackage _ => by intro i j w c hq; cases hq; exact .refl _
  | _, .ptr v => by
    intro i j w c hq
    rw [qualifyData] at hq
    obtain ⟨⟨v', c'⟩, i1, h1, h2⟩ := IM.bind_eq_ok hq
    cases h2
    have := qualifyData_specsFrom h true v _ _ _ _ h1
    rw [TVal.shownSpecs, TVal.shownSpecs]
    split
    · rwa [inIface_specsFrom]
    · exact this
  | addr, .struct fs => by
    intro i j w c hq
    rw [qualifyData] at hq
    obtain ⟨⟨v', c'⟩, i1, h1, h2⟩ := IM.bind_eq_ok hq
    cases h2
    exact qualifyDataFields_specsFrom h addr _ _ fs _ _ _ _ h1
  | addr, .array vs => by
    intro i j w c hq
    rw [qualifyData] at hq
    obtain ⟨⟨v', c'⟩, i1, h1, h2⟩ := IM.bind_eq_ok hq
    cases h2
    exact qualifyDataElems_specsFrom h addr _ _ vs _ _ _ _ h1
  | addr, .slice vs => by
    intro i j w c hq
    rw [qualifyData] at hq
    obtain ⟨⟨v', c'⟩, i1, h1, h2⟩ := IM.bind_eq_ok hq
    cases h2
    exact qualifyDataElems_specsFrom h true _ _ vs _ _ _ _ h1
  | addr, .map es => by
    intro i j w c hq
    rw [qualifyData] at hq
    obtain ⟨⟨v', c'⟩, i1, h1, h2⟩ := IM.bind_eq_ok hq
    dsimp only at h2
    split at h2
    · cases h2
      rw [TVal.shownSpecs, TVal.shownSpecs]
      exact (qualifyDataEntries_specsFrom h es _ _ _ _ h1).trans (foldl_specsFrom _ [])
    · cases h2; exact .refl _
theorem qualifyDataFields_specsFrom (h : Heap) : ∀ (addr changed hidden : Bool) (fs : List (Bool × TVal)),
    ∀ (i j : Imports) (w : List (Bool × TVal)) (c : Bool),
    qualifyDataFields h addr changed hidden fs i = (.ok (w, c), j) → SpecsFrom (shownSpecsFields fs) (shownSpecsFields w)
  | _, _, _, [] => by intro i j w c hq; cases hq; exact .refl _
  | addr, changed, hidden, (e, v) :: fs => by
    intro i j w c hq
    rw [qualifyDataFields] at hq
    split at hq
    · cases hq
    · obtain ⟨⟨v', c'⟩, i1, h1, h2⟩ := IM.bind_eq_ok hq
      dsimp only at h2
      split at h2
      · cases h2
      · obtain ⟨⟨fs', c2⟩, i2, h3, h4⟩ := IM.bind_eq_ok h2
        cases h4
        rw [shownSpecsFields, shownSpecsFields]
        exact (qualifyData_specsFrom h addr v _ _ _ _ h1).append (qualifyDataFields_specsFrom h addr _ _ fs _ _ _ _ h3)
theorem qualifyDataElems_specsFrom (h : Heap) : ∀ (addr sliceable changed : Bool) (fs : List TVal),
    ∀ (i j : Imports) (w : List TVal) (c : Bool),
    qualifyDataElems h addr sliceable changed fs i = (.ok (w, c), j) → SpecsFrom (shownSpecsElems fs) (shownSpecsElems w)
  | _, _, _, [] => by intro i j w c hq; cases hq; exact .refl _
  | addr, sliceable, changed, v :: fs => by
    intro i j w c hq
    rw [qualifyDataElems] at hq
    obtain ⟨⟨v', c'⟩, i1, h1, h2⟩ := IM.bind_eq_ok hq
    dsimp only at h2
    split at h2
    · cases h2
    · obtain ⟨⟨fs', c2⟩, i2, h3, h4⟩ := IM.bind_eq_ok h2
      cases h4
      rw [shownSpecsElems, shownSpecsElems]
      exact (qualifyData_specsFrom h addr v _ _ _ _ h1).append (qualifyDataElems_specsFrom h addr _ _ fs _ _ _ _ h3)
theorem qualifyDataEntries_specsFrom (h : Heap) : ∀ (es : List (TVal × TVal)),
    ∀ (i j : Imports) (w : List (TVal × TVal)) (c : Bool),
    qualifyDataEntries h es i = (.ok (w, c), j) → SpecsFrom (shownSpecsEntries es) (shownSpecsEntries w)
  | [] => by intro i j w c hq; cases hq; exact .refl _
  | (k, v) :: es => by
    intro i j w c hq
    rw [qualifyDataEntries] at hq
    obtain ⟨⟨k', c'⟩, i1, h1, h2⟩ := IM.bind_eq_ok hq
    obtain ⟨⟨v', c''⟩, i1', h1', h2⟩ := IM.bind_eq_ok h2
    dsimp only at h2
    split at h2
    · cases h2
    · obtain ⟨⟨fs', c2⟩, i2, h3, h4⟩ := IM.bind_eq_ok h2
      cases h4
      rw [shownSpecsEntries, shownSpecsEntries]
      exact ((qualifyData_specsFrom h false k _ _ _ _ h1).append (qualifyData_specsFrom h false v _ _ _ _ h1')).append
        (qualifyDataEntries_specsFrom h es _ _ _ _ h3)
end

theorem qualifyTemplateData_specsFrom {h : Heap} {v w : TVal} {i j : Imports}
    (hq : qualifyTemplateData h v i = (.ok w, j)) : SpecsFrom v.shownSpecs w.shownSpecs := by
  obtain ⟨⟨r, c⟩, i1, h1, h2⟩ := IM.bind_eq_ok hq
  have := qualifyData_specsFrom h true _ _ _ _ _ h1
  rw [TVal.shownSpecs] at this
  cases r <;> cases h2 <;> exact this

/-- Lines and templates show nothing new. -/
structure ShowsKept (h h' : Heap) : Prop where
  args : ∀ p l', h'.args p = some l' → ∃ l, h.args p = some l ∧ ∀ a' ∈ l', a' ∈ l ∨ ∀ g x, ¬ a'.Shows g x
  templs : ∀ p t', h'.templs p = some t' → ∃ t, h.templs p = some t ∧
    SpecsFrom t.data.shownSpecs t'.data.shownSpecs

theorem ShowsKept.refl (h : Heap) : ShowsKept h h :=
  ⟨fun _ l hl => ⟨l, hl, fun _ ha => .inl ha⟩, fun _ t ht => ⟨t, ht, .refl _⟩⟩

theorem ShowsKept.trans {h h' h'' : Heap} (a : ShowsKept h h') (b : ShowsKept h' h'') : ShowsKept h h'' := by
  refine ⟨fun p l hl => ?_, fun p t ht => ?_⟩
  · obtain ⟨l1, h1, h2⟩ := b.args p l hl
    obtain ⟨l2, h3, h4⟩ := a.args p l1 h1
    refine ⟨l2, h3, fun x hx => ?_⟩
    rcases h2 x hx with h5 | h5
    · exact h4 x h5
    · exact .inr h5
  · obtain ⟨t1, h1, h2⟩ := b.templs p t ht
    obtain ⟨t2, h3, h4⟩ := a.templs p t1 h1
    exact ⟨t2, h3, h4.trans h2⟩

theorem QStep.showsKept {h i h' i'} (a : QStep h i h' i') : ShowsKept h h' := by
  have r := ShowsKept.refl h
  cases a with
  | @args p l l' o _ hl hq =>
    refine ⟨fun q m hm => ?_, r.templs⟩
    by_cases hqp : q = p
    · subst hqp
      simp only [upd_same, Option.some.injEq] at hm
      subst hm
      exact ⟨l, hl, qualifyArgList_shows hq⟩
    · exact r.args q m ((upd_ne _ _ hqp).symm.trans hm)
  | @templ p t d _ hl hq =>
    refine ⟨r.args, fun q m hm => ?_⟩
    by_cases hqp : q = p
    · subst hqp
      simp only [upd_same, Option.some.injEq] at hm
      subst hm
      exact ⟨t, hl, qualifyTemplateData_specsFrom hq⟩
    · exact r.templs q m ((upd_ne _ _ hqp).symm.trans hm)
  | _ => exact ⟨r.args, r.templs⟩

theorem QSteps.showsKept {h i h' i'} (a : QSteps h i h' i') : ShowsKept h h' := by
  induction a with
  | refl => exact .refl _
  | step _ s ih => exact ih.trans s.showsKept

theorem type_name_of_skeleton {h h' : Heap} (hs : h'.skeleton = h.skeleton) {p : Ptr} {ts : TypeSpec}
    (ht : h'.types p = some ts) : ∃ ts', h.types p = some ts' ∧ ts'.skeleton = ts.skeleton := by
  have := congrFun (congrArg Heap.types hs) p
  simp only [Heap.skeleton, ht, Option.map_some] at this
  exact Option.map_eq_some_iff.1 this.symm

theorem argShows_congr {h h' : Heap} (hs : h'.skeleton = h.skeleton) {a : Arg} {x : Place} (ha : a.Shows h' x) :
    a.Shows h x := by
  cases ha with
  | embed => exact .embed
  | unnamed h1 h2 =>
    obtain ⟨ts', h3, h4⟩ := type_name_of_skeleton hs h1
    exact .unnamed h3 ((congrArg TypeSpec.name h4).trans h2)

theorem ShowsKept.shows {h h' : Heap} (k : ShowsKept h h') (hs : h'.skeleton = h.skeleton) {e : FileElem} {x : Place}
    (hx : Shows h' e x) : Shows h e x := by
  cases hx with
  | arg h1 h2 h3 h4 =>
    obtain ⟨l, h5, h6⟩ := k.args _ _ h2
    rcases h6 _ h3 with h7 | h7
    · exact .arg (.of_skeleton (hs ▸ h1.skeleton)) h5 h7 (argShows_congr hs h4)
    · exact absurd h4 (h7 _ _)
  | data h1 h2 h3 =>
    obtain ⟨t, h4, h5⟩ := k.templs _ _ h2
    cases h3 with
    | unnamed h6 h7 h8 =>
      obtain ⟨o, h9⟩ := h5 _ _ h6
      obtain ⟨ts', h10, h11⟩ := type_name_of_skeleton hs h7
      exact .data (.of_skeleton (hs ▸ h1.skeleton)) h4 (.unnamed h9 h10 ((congrArg TypeSpec.name h11).trans h8))

/-! ### The text depends only on what is shown -/

theorem concatText_congr {α : Type} {f g : α → Outcome GoString} : ∀ {l : List α}, (∀ a ∈ l, f a = g a) →
    concatText f l = concatText g l
  | [], _ => rfl
  | a :: l, hl => by
    rw [concatText, concatText, hl a (by simp), concatText_congr fun b hb => hl b (by simp [hb])]

theorem deref_congr {α β : Type} {m m' : Ptr → Option α} {p : Ptr} {f g : α → Outcome β} (hm : m' p = m p)
    (hfg : ∀ a, m p = some a → f a = g a) : (deref m' p).bind f = (deref m p).bind g := by
  simp only [deref, hm]
  cases h : m p with
  | none => rfl
  | some a => exact hfg a h

theorem symbolStrings_skeleton (h : Heap) (c : ValueSpec) : ∀ l,
    symbolStrings h.skeleton c.skeleton l = symbolStrings h c l
  | [] => rfl
  | k :: l => by rw [symbolStrings, symbolStrings, valueSymbolAt_skeleton, symbolStrings_skeleton h c l]

theorem valueString_skeleton (h : Heap) (c : ValueSpec) : c.skeleton.string h.skeleton = c.string h := by
  simp only [ValueSpec.string, symbolStrings_skeleton, valueToSymbol_skeleton]
  rfl

theorem funcString_skeleton (h : Heap) (f : FuncSpec) : f.skeleton.string h.skeleton = f.string h := by
  simp only [FuncSpec.string, funcToSymbol_skeleton]
  rfl

theorem typeString_named (tbl : Nat → Bool) {h h' : Heap} (hs : h'.skeleton = h.skeleton) {t t' : TypeSpec}
    (ht : t'.skeleton = t.skeleton) (hn : t.name ≠ []) : t'.string tbl h' = t.string tbl h := by
  have h1 : t'.toSymbol h' = t.toSymbol h := by
    rw [← typeToSymbol_skeleton h', ← typeToSymbol_skeleton h, hs, ht]
  have h2 : t'.name = t.name := congrArg TypeSpec.name (a₁ := t'.skeleton) (a₂ := t.skeleton) ht
  have h3 : t'.parent = t.parent := congrArg TypeSpec.parent (a₁ := t'.skeleton) (a₂ := t.skeleton) ht
  rw [TypeSpec.string, TypeSpec.string, h1, h2, h3, if_neg hn, if_neg hn]

variable {h h' : Heap} {env : Env}

theorem shown_congr (tbl : Nat → Bool) (hs : h'.skeleton = h.skeleton) {a : Arg}
    (ha : ∀ x, a.Shows h x → x.Same h h') : a.shown tbl h' = a.shown tbl h := by
  cases a <;> try rfl
  · rename_i p
    simp only [Arg.shown]
    congr 1
    have e : ∀ h : Heap, (deref h.values p).bind (·.string h) = (deref h.skeleton.values p).bind (·.string h.skeleton) :=
      fun h => (deref_skeleton _ _ _ _ _ (valueString_skeleton h)).symm
    rw [e h', e h, hs]
  · rename_i p
    simp only [Arg.shown]
    congr 1
    have hp : (h'.types p).map TypeSpec.skeleton = (h.types p).map TypeSpec.skeleton :=
      congrFun (congrArg Heap.types hs) p
    simp only [deref]
    cases h1 : h.types p with
    | none =>
      rw [h1] at hp
      rw [Option.map_eq_none_iff.1 hp]
      rfl
    | some t =>
      rw [h1] at hp
      obtain ⟨t', h2, h3⟩ := Option.map_eq_some_iff.1 hp
      rw [h2]
      by_cases hn : t.name = []
      · have := ha _ (.unnamed h1 hn)
        simp only [Place.Same, h1, h2, Option.some.injEq] at this
        subst this
        show t'.string tbl h' = t'.string tbl h
        rw [TypeSpec.string, TypeSpec.string, if_pos hn, if_pos hn]
      · exact typeString_named tbl hs h3 hn
  · rename_i p
    simp only [Arg.shown]
    congr 1
    have e : ∀ h : Heap, (deref h.methods p).bind (fun m => .ok m.name) =
        (deref h.skeleton.methods p).bind (fun m => .ok m.name) := fun h =>
        (deref_skeleton InterfaceMethod.skeleton _ _ (fun m => .ok m.name) (fun m => .ok m.name) fun _ => rfl).symm
    rw [e h', e h, hs]
  · rename_i p
    simp only [Arg.shown]
    congr 1
    have e : ∀ h : Heap, (deref h.funcs p).bind (·.string h) = (deref h.skeleton.funcs p).bind (·.string h.skeleton) :=
      fun h => (deref_skeleton _ _ _ _ _ (funcString_skeleton h)).symm
    rw [e h', e h, hs]
  · rename_i p
    simp only [Arg.shown]
    congr 1
    exact deref_congr (ha _ .embed) fun _ _ => rfl
  · rename_i p
    simp only [Arg.shown]
    congr 1
    have e : ∀ h : Heap, (deref h.fields p).bind (fun m => .ok m.name) =
        (deref h.skeleton.fields p).bind (fun m => .ok m.name) := fun h =>
        (deref_skeleton FieldSpec.skeleton _ _ (fun m => .ok m.name) (fun m => .ok m.name) fun _ => rfl).symm
    rw [e h', e h, hs]

theorem fprintf_congr (hs : h'.skeleton = h.skeleton) {format : GoString} {args : List Arg}
    (hf : env.ArgsByString h format args) (ha : ∀ a ∈ args, ∀ x, a.Shows h x → x.Same h h') :
    fprintf env h' format args = fprintf env h format args := by
  rw [fprintf, fprintf, List.map_congr_left fun a h1 => shown_congr env.isPrint hs (ha a h1)]
  rcases hf with hf | hf
  · obtain ⟨s, hf⟩ := Option.ne_none_iff_exists'.1 hf
    rw [hf]
  · rw [hf h h' args hs ha]

theorem codeElem_text_congr (hs : h'.skeleton = h.skeleton) {x : CodeElem} (hx : x.place.Same h h')
    (hl : ∀ format p l, x = .line format p → h.args p = some l → env.ArgsByString h format l ∧
      ∀ a ∈ l, ∀ y, a.Shows h y → y.Same h h')
    (ht : ∀ p t, x = .templ p → h.templs p = some t → env.DataByString h t.templ t.data ∧
      ∀ y, t.data.Shows h y → y.Same h h') : x.text env h' = x.text env h := by
  cases x with
  | line format p =>
    exact deref_congr hx fun l h3 => congrArg Outcome.ok (fprintf_congr hs (hl _ _ l rfl h3).1 (hl _ _ l rfl h3).2)
  | templ p =>
    refine deref_congr hx fun t h3 => ?_
    obtain ⟨h1, h2⟩ := ht _ _ rfl h3
    rw [h1 h' hs h2]

theorem Env.ByString.text {e : FileElem} (he : env.ByString h e) : env.TextByString h e where
  type := .inr he.type
  value _ _ _ _ _ _ _ _ _ _ := .inr he.value
  line format p _ hc _ := .inr (he.line format p hc)
  templ p t hc ht h' := he.templ p t hc ht _ h' _

/-- What is needed for the text of an element to be the same. -/
structure SameText (env : Env) (h h' : Heap) (e : FileElem) : Prop where
  skel : h'.skeleton = h.skeleton
  env : env.TextByString h e
  made : ∀ x, MadeOf h e x → x.Same h h'
  shows : ∀ x, Shows h e x → x.Same h h'

theorem SameText.code {e : FileElem} (s : SameText env h h' e) {x : CodeElem} (hx : CodeIn h e x) :
    x.text env h' = x.text env h := by
  refine codeElem_text_congr s.skel (s.made _ (.code hx)) ?_ ?_
  · rintro format p l rfl h1
    exact ⟨s.env.line _ _ l hx h1, fun a h2 y h3 => s.shows _ (.arg hx h1 h2 h3)⟩
  · rintro p t rfl h1
    exact ⟨s.env.templ _ _ hx h1, fun y h3 => s.shows _ (.data hx h1 h3)⟩

theorem typeName_shows {t : TypeName} {x : Place} : ¬ (Arg.typeName t).Shows h x := fun hx => by cases hx

theorem fprintf_typeName (hs : h'.skeleton = h.skeleton) {format : GoString} {t : TypeName}
    (hf : env.ArgsByString h format [.typeName t]) :
    fprintf env h' format [.typeName t] = fprintf env h format [.typeName t] := by
  refine fprintf_congr hs hf fun a ha x hx => ?_
  rw [List.mem_singleton.1 ha] at hx
  cases hx

/-- A valid type is shown as text. -/
theorem shown_valid (tbl : Nat → Bool) (h : Heap) {t : TypeName} (hv : t.valid = true) :
    ∃ s, (Arg.typeName t).shown tbl h = .str s := by
  obtain ⟨s, hs⟩ := buffer_ok tbl hv
  cases t
  case nil => simp [TypeName.valid] at hv
  case basic | named => exact ⟨_, rfl⟩
  all_goals exact ⟨s, by simp only [Arg.shown, TypeName.string, hs, Shown.ofString]⟩

theorem sprintf_v (tbl : Nat → Bool) (s : GoString) : sprintf tbl (b! "%v") [.str s] ≠ none := by
  simp [sprintf, fmtVerb]

theorem sprintf_space_v (tbl : Nat → Bool) (s : GoString) : sprintf tbl (b! " %v") [.str s] ≠ none := by
  simp [sprintf, fmtVerb]

theorem ArgsByString.valid {t : TypeName} (hf : t.valid = true ∨ env.FormatByString (b! "%v")) :
    env.ArgsByString h (b! "%v") [.typeName t] := by
  rcases hf with hf | hf
  · obtain ⟨s, hs⟩ := shown_valid env.isPrint h hf
    exact .inl (by rw [List.map_singleton, hs]; exact sprintf_v _ _)
  · exact .inr hf

mutual
theorem underlyingText_congr (hs : h'.skeleton = h.skeleton) : ∀ t : TypeName,
    (t.valid = true ∨ env.FormatByString (b! "%v")) → underlyingText env h' t = underlyingText env h t
  | .struct fs, hf => by rw [underlyingText, underlyingText, fieldTypesText_congr hs fs hf]
  | .interface ms es, _ => by rw [underlyingText, underlyingText]
  | .nil, _ => by simp only [underlyingText]
  | .named _, _ => by simp only [underlyingText]
  | .basic _, _ => by simp only [underlyingText]
  | .chan _ _, _ => by simp only [underlyingText]
  | .ptr _, _ => by simp only [underlyingText]
  | .slice _, _ => by simp only [underlyingText]
  | .array _ _, _ => by simp only [underlyingText]
  | .map _ _, _ => by simp only [underlyingText]
  | .func _, _ => by simp only [underlyingText]
theorem fieldTypesText_congr (hs : h'.skeleton = h.skeleton) : ∀ l : List FieldType,
    (validFields l = true ∨ env.FormatByString (b! "%v")) → fieldTypesText env h' l = fieldTypesText env h l
  | [], _ => rfl
  | ⟨name, t, tag⟩ :: l, hf => by
    have hf' : (t.valid = true ∨ env.FormatByString (b! "%v")) ∧ (validFields l = true ∨ env.FormatByString (b! "%v")) := by
      rcases hf with hf | hf
      · simp only [validFields, Bool.and_eq_true] at hf
        exact ⟨.inl hf.1, .inl hf.2⟩
      · exact ⟨.inr hf, .inr hf⟩
    have e := underlyingText_congr hs t hf'.1
    rw [fieldTypesText.eq_def, fieldTypesText.eq_def env h]
    have e2 := fprintf_typeName hs (ArgsByString.valid (h := h) hf'.1)
    simp only [fieldTypesText_congr hs l hf'.2]
    cases t <;> first | rfl | simp only [e, e2]
end

theorem writeUnderlying_congr (hs : h'.skeleton = h.skeleton)
    (hf : (∀ p f t, h.fields p = some f → f.type = .name t → t.valid = true) ∨ env.FormatByString (b! "%v")) :
    ∀ (fuel : Nat) {p : Ptr} {t : TypeSpec}, h.types p = some t → (∀ x, BodyMadeOf h p x → x.Same h h') →
    writeUnderlying env h' fuel t = writeUnderlying env h fuel t
  | 0, _, _, _, _ => rfl
  | fuel + 1, p, t, ht, hb => by
    rw [writeUnderlying.eq_def, writeUnderlying.eq_def env h]
    have h1 : concatText (fun p => (deref h'.fields p).bind fun f =>
        f.text env h' (writeUnderlying env h' fuel)) t.structBody = concatText (fun p => (deref h.fields p).bind fun f =>
        f.text env h (writeUnderlying env h fuel)) t.structBody := by
      refine concatText_congr fun q hq => deref_congr (hb _ (.field ht hq)) fun f hfq => ?_
      rw [FieldSpec.text, FieldSpec.text]
      suffices fieldTypeText env h' (writeUnderlying env h' fuel) f.type =
        fieldTypeText env h (writeUnderlying env h fuel) f.type by rw [this]
      cases hft : f.type with
      | nil => rfl
      | name t =>
        have hv : t.valid = true ∨ env.FormatByString (b! "%v") := hf.imp_left fun k => k q f t hfq hft
        simp only [fieldTypeText, underlyingText_congr hs t hv, fprintf_typeName hs (ArgsByString.valid hv)]
      | spec r =>
        rw [fieldTypeText, fieldTypeText]
        refine deref_congr (hb _ (.spec ht hq hfq hft .self)) fun tr htr => ?_
        rw [writeUnderlying_congr hs hf fuel htr fun x hx => hb _ (.spec ht hq hfq hft hx)]
        have e : tr.toSymbol h' = tr.toSymbol h := by
          rw [← typeToSymbol_skeleton h', ← typeToSymbol_skeleton h, hs]
        rw [e]
        split
        · rfl
        · refine congrArg (Outcome.bind (tr.toSymbol h)) (funext fun s => congrArg Outcome.ok ?_)
          refine fprintf_congr hs (.inl (sprintf_v _ _)) fun a ha x hx => ?_
          rw [List.mem_singleton.1 ha] at hx
          cases hx
    have h2 : concatText (IfaceElem.text env h') t.interfaceBody = concatText (IfaceElem.text env h) t.interfaceBody := by
      refine concatText_congr fun e he => ?_
      have := hb _ (.elem ht he)
      cases e <;> exact deref_congr this fun _ _ => rfl
    simp only [h1, h2]

theorem typeText_congr (hs : h'.skeleton = h.skeleton)
    (hf : (∀ p f t, h.fields p = some f → f.type = .name t → t.valid = true) ∨ env.FormatByString (b! "%v")) {fuel : Nat} {p : Ptr}
    {t : TypeSpec} (ht : h.types p = some t) (hb : ∀ x, BodyMadeOf h p x → x.Same h h') (b : Bool) :
    t.text env h' fuel b = t.text env h fuel b := by
  rw [TypeSpec.text, TypeSpec.text, writeUnderlying_congr hs hf fuel ht hb]

theorem SameText.values {p : Ptr} (s : SameText env h h' (.values p)) {d : ValueDecl}
    (hd : h.valueDecls p = some d) {q : Ptr} (hq : q ∈ d.specs) {c : ValueSpec} (hc : h.values q = some c) (b : Bool) :
    c.text env h' b = c.text env h b := by
  rw [ValueSpec.text, ValueSpec.text]
  have e1 : ∀ a, c.type.arg = some a → fprintf env h' (b! " %v") [a] = fprintf env h (b! " %v") [a] := by
    intro a hca
    cases hct : c.type with
    | nil => rw [hct] at hca; cases hca
    | name t => rw [hct] at hca; cases hca; exact fprintf_typeName s.skel (s.env.value _ _ _ _ _ rfl hd hq hc (by rw [hct]; rfl))
    | spec r =>
      rw [hct] at hca
      cases hca
      refine fprintf_congr s.skel (s.env.value _ _ _ _ _ rfl hd hq hc (by rw [hct]; rfl)) fun a ha x hx => ?_
      rw [List.mem_singleton.1 ha] at hx
      cases hx
      exact s.made _ (.valueSpec hd hq hc hct .self)
  have e2 : (match c.init with
      | none => .ok []
      | some b => (deref h'.blocks b).bind fun cb => (codeText env h' cb).bind fun s => .ok (b! " = " ++ s)) =
      ((match c.init with
      | none => .ok []
      | some b => (deref h.blocks b).bind fun cb =>
        (codeText env h cb).bind fun s => .ok (b! " = " ++ s)) : Outcome GoString) := by
    cases hi : c.init with
    | none => rfl
    | some bl =>
      refine deref_congr (congrFun (congrArg Heap.blocks s.skel) bl) fun cb hcb => ?_
      have : codeText env h' cb = codeText env h cb :=
        concatText_congr fun x hx => s.code (.init hd hq hc hi hcb hx)
      rw [this]
  cases hca : c.type.arg with
  | none => exact congrArg (fun o => Outcome.bind o _) e2
  | some a =>
    simp only [e1 a hca]
    exact congrArg (fun o => Outcome.bind o _) e2

theorem SameText.text {e : FileElem} (s : SameText env h h' e) (fuel : Nat) :
    e.text env h' fuel = e.text env h fuel := by
  cases e with
  | values p =>
    refine deref_congr (congrFun (congrArg Heap.valueDecls s.skel) p) fun d hd => ?_
    rw [ValueDecl.text, ValueDecl.text]
    split
    · rw [concatText_congr fun q hq => deref_congr (s.made _ (.value hd hq)) fun c hc => s.values hd hq hc true]
    · cases hds : d.specs with
      | nil => rfl
      | cons q l =>
        have hq : q ∈ d.specs := by simp [hds]
        refine deref_congr (s.made _ (.value hd hq)) fun c hc => ?_
        rw [s.values hd hq hc]
  | types p =>
    refine deref_congr (congrFun (congrArg Heap.typeDecls s.skel) p) fun d hd => ?_
    rw [TypeDecl.text, TypeDecl.text]
    split
    · rw [concatText_congr fun q hq => deref_congr (s.made _ (.type hd hq .self)) fun c hc =>
        typeText_congr s.skel s.env.type hc (fun x hx => s.made _ (.type hd hq hx)) true]
    · cases hds : d.types with
      | nil => rfl
      | cons q l =>
        have hq : q ∈ d.types := by simp [hds]
        refine deref_congr (s.made _ (.type hd hq .self)) fun c hc => ?_
        rw [typeText_congr s.skel s.env.type hc fun x hx => s.made _ (.type hd hq hx)]
  | func p =>
    refine deref_congr (s.made _ .func) fun f hf => ?_
    rw [FuncSpec.text, FuncSpec.text]
    have : codeText env h' f.code = codeText env h f.code :=
      concatText_congr fun x hx => s.code (.func hf hx)
    rw [this]

end Gopoet
