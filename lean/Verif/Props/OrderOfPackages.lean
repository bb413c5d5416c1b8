import Verif.Proof.OrderLemmas
import Verif.Props.Determinism
/-! C43, continued: the order of map entries has an influence only if it changes import statements; files whose template
data mentions packages in the same order in any case. -/

namespace Gopoet
open Imports

theorem SameButOrder.invs {h h1 : Heap} {p : Ptr} (hs : SameButOrder h h1)
    (hr : ∀ f, h.files p = some f → Reachable f.imports) (hm : ∀ f, h1.files p = some f → f.imports.Maps) :
    (∀ f, h.files p = some f → Inv f.imports) ∧ ∀ f, h1.files p = some f → Inv f.imports := by
  refine ⟨fun f hf => (hr f hf).inv, fun f1 hf1 => ?_⟩
  rcases hs.files p with ⟨-, h3⟩ | ⟨f, g, h2, h3, -, h5⟩
  · rw [hf1] at h3; simp at h3
  · rw [hf1] at h3
    cases h3
    exact h5.inv (hr f h2).inv (hm f1 hf1)

/-- C43: if the file has the same imports in the end, the order of map entries has no influence: the text is the same, or
writing fails in the same way. Missing from the full property: files whose imports depend on the order (`C43_full_fails`). -/
theorem C43_same_imports_partial {env : Env} (hb : OrderBlind env) (fuel : Nat) (p : Ptr) {h h1 : Heap} (hs : SameButOrder h h1)
    (hr : ∀ f, h.files p = some f → Reachable f.imports) (hm : ∀ f, h1.files p = some f → f.imports.Maps)
    (hd : ∀ q t, h.templs q = some t → PlainData t.data)
    (hj : ∀ f' f1', (renderFile env fuel p h).2.files p = some f' → (renderFile env fuel p h1).2.files p = some f1' →
      SameTables f'.imports f1'.imports) :
    (renderFile env fuel p h1).1 = (renderFile env fuel p h).1 := by
  obtain ⟨hi, hi1⟩ := hs.invs hr hm
  refine (pair_renderFile hb fuel p hs hi hi1 hd (.inl fun j j1 h2 h3 => ?_)).1
  simp only [Heap.importsAt, Option.map_eq_some_iff] at h2 h3
  obtain ⟨f', h2, rfl⟩ := h2
  obtain ⟨f1', h3, rfl⟩ := h3
  exact hj f' f1' h2 h3

/-- C43: if all template data mentions packages for the first time in the same order (whatever the order of entries is),
the text is the same, whatever the packages are called. -/
theorem C43_same_order_partial {env : Env} (hb : OrderBlind env) (fuel : Nat) (p : Ptr) {h h1 : Heap} (hs : SameButOrder h h1)
    (hr : ∀ f, h.files p = some f → Reachable f.imports) (hm : ∀ f, h1.files p = some f → f.imports.Maps)
    (hd : ∀ q t, h.templs q = some t → PlainData t.data)
    (ho : ∀ q t t1, h.templs q = some t → h1.templs q = some t1 →
      firstPackages ((TVal.iface acceptsAll t1.data).mentions h1) = firstPackages ((TVal.iface acceptsAll t.data).mentions h)) :
    (renderFile env fuel p h1).1 = (renderFile env fuel p h).1 := by
  obtain ⟨hi, hi1⟩ := hs.invs hr hm
  refine (pair_renderFile hb fuel p hs hi hi1 hd (.inr fun q t t1 ht ht1 => ?_)).1
  have h2 := ho q t t1 ht ht1
  rcases hs.templs q with ⟨h7, -⟩ | ⟨u, u1, h7, h8, -, h9⟩
  · rw [ht] at h7; simp at h7
  · rw [ht] at h7; rw [ht1] at h8
    cases h7; cases h8
    have hp := hd q t ht
    rw [mentions_of_noSpecs h {} hp.noSpecs, mentions_of_noSpecs h1 {} (h9.plainData hp).noSpecs] at h2
    exact h2

/-! ### Maps in which one entry refers to packages -/

theorem flatMap_filter {α β : Type} (f : α → List β) [DecidableEq β] : ∀ l : List α,
    (l.filter (fun a => decide (f a ≠ []))).flatMap f = l.flatMap f
  | [] => rfl
  | a :: l => by
    by_cases ha : f a = []
    · rw [List.filter_cons_of_neg (by simpa using ha), List.flatMap_cons, ha, List.nil_append, flatMap_filter f l]
    · rw [List.filter_cons_of_pos (by simpa using ha), List.flatMap_cons, List.flatMap_cons, flatMap_filter f l]

theorem flatMap_perm_one {α β : Type} [DecidableEq β] (f : α → List β) {l l1 : List α} (hp : l.Perm l1)
    (h1 : (l.filter (fun a => decide (f a ≠ []))).length ≤ 1) : l1.flatMap f = l.flatMap f := by
  have hq := hp.filter (fun a => decide (f a ≠ []))
  rw [← flatMap_filter f l, ← flatMap_filter f l1]
  rcases hl : l.filter (fun a => decide (f a ≠ [])) with _ | ⟨a, _ | ⟨b, r⟩⟩
  · rw [hl] at hq
    rw [hq.nil_eq]
  · rw [hl] at hq
    rw [List.perm_singleton.1 hq.symm]
  · rw [hl] at h1; simp at h1

theorem oneReferringFields_iff : ∀ {l : List (Bool × TVal)}, oneReferringFields l ↔ ∀ e ∈ l, e.2.oneReferring
  | [] => by simp [oneReferringFields]
  | (b, v) :: l => by simp [oneReferringFields, oneReferringFields_iff (l := l)]

theorem oneReferringElems_iff : ∀ {l : List TVal}, oneReferringElems l ↔ ∀ e ∈ l, e.oneReferring
  | [] => by simp [oneReferringElems]
  | v :: l => by simp [oneReferringElems, oneReferringElems_iff (l := l)]

theorem oneReferringEntries_iff : ∀ {l : List (TVal × TVal)},
    oneReferringEntries l ↔ ∀ e ∈ l, e.1.oneReferring ∧ e.2.oneReferring
  | [] => by simp [oneReferringEntries]
  | (k, v) :: l => by
    simp [oneReferringEntries, oneReferringEntries_iff (l := l)]
    tauto

/-- In another order, data in which every map has one referring entry at most mentions the same packages in the same order. -/
theorem Reordered.mentions_eq {v v1 : TVal} (h : Reordered v v1) (ho : v.oneReferring) :
    v1.oneReferring ∧ v1.mentions {} = v.mentions {} := by
  induction h with
  | refl => exact ⟨ho, rfl⟩
  | trans _ _ h1 h2 =>
    obtain ⟨h3, h4⟩ := h1 ho
    obtain ⟨h5, h6⟩ := h2 h3
    exact ⟨h5, h6.trans h4⟩
  | perm hp =>
    simp only [TVal.oneReferring] at ho ⊢
    refine ⟨⟨(hp.filter _).length_eq ▸ ho.1, ?_⟩, ?_⟩
    · rw [oneReferringEntries_iff] at ho ⊢
      exact fun e he => ho.2 e (hp.mem_iff.2 he)
    · simp only [TVal.mentions, mentionsEntries_eq]
      exact flatMap_perm_one _ hp ho.1
  | @iface acc v v' hr ih =>
    have ho' : v.oneReferring := by simpa only [TVal.oneReferring] using ho
    obtain ⟨h1, h2⟩ := ih ho'
    refine ⟨by simpa only [TVal.oneReferring] using h1, ?_⟩
    by_cases hc : v.isConv = true
    · rw [hr.conv.2 hc]
    · have hc : v.isConv = false := by simpa using hc
      rw [mentions_iface _ _ hc, mentions_iface _ _ (hr.conv.1.trans hc)]
      exact h2
  | ptr _ ih =>
    simp only [TVal.oneReferring, TVal.mentions] at ho ⊢
    exact ih ho
  | @field a b e v v' _ ih =>
    simp only [TVal.oneReferring, TVal.mentions, oneReferringFields_iff, mentionsFields_append, mentionsFields] at ho ⊢
    obtain ⟨h1, h2⟩ := ih (ho (e, v) (by simp))
    refine ⟨fun e he => ?_, by rw [h2]⟩
    rw [List.mem_append, List.mem_cons] at he
    rcases he with he | rfl | he
    · exact ho e (by simp [he])
    · exact h1
    · exact ho e (by simp [he])
  | array _ ih =>
    simp only [TVal.oneReferring, TVal.mentions, oneReferringElems_iff, mentionsElems_append, mentionsElems] at ho ⊢
    obtain ⟨h1, h2⟩ := ih (ho _ (by simp))
    refine ⟨fun e he => ?_, by rw [h2]⟩
    rw [List.mem_append, List.mem_cons] at he
    rcases he with he | rfl | he
    · exact ho e (by simp [he])
    · exact h1
    · exact ho e (by simp [he])
  | slice _ ih =>
    simp only [TVal.oneReferring, TVal.mentions, oneReferringElems_iff, mentionsElems_append, mentionsElems] at ho ⊢
    obtain ⟨h1, h2⟩ := ih (ho _ (by simp))
    refine ⟨fun e he => ?_, by rw [h2]⟩
    rw [List.mem_append, List.mem_cons] at he
    rcases he with he | rfl | he
    · exact ho e (by simp [he])
    · exact h1
    · exact ho e (by simp [he])
  | @key a b k k' v _ ih =>
    simp only [TVal.oneReferring, TVal.mentions, oneReferringEntries_iff, mentionsEntries_eq] at ho ⊢
    obtain ⟨h1, h2⟩ := ih (ho.2 (k, v) (by simp)).1
    refine ⟨⟨?_, fun e he => ?_⟩, ?_⟩
    · refine Eq.trans_le ?_ ho.1
      simp [List.filter_append, List.filter_cons, h2]
      split <;> simp
    · rw [List.mem_append, List.mem_cons] at he
      rcases he with he | rfl | he
      · exact ho.2 e (by simp [he])
      · exact ⟨h1, (ho.2 (k, v) (by simp)).2⟩
      · exact ho.2 e (by simp [he])
    · simp [h2]
  | @value a b k v v' _ ih =>
    simp only [TVal.oneReferring, TVal.mentions, oneReferringEntries_iff, mentionsEntries_eq] at ho ⊢
    obtain ⟨h1, h2⟩ := ih (ho.2 (k, v) (by simp)).2
    refine ⟨⟨?_, fun e he => ?_⟩, ?_⟩
    · refine Eq.trans_le ?_ ho.1
      simp [List.filter_append, List.filter_cons, h2]
      split <;> simp
    · rw [List.mem_append, List.mem_cons] at he
      rcases he with he | rfl | he
      · exact ho.2 e (by simp [he])
      · exact ⟨(ho.2 (k, v) (by simp)).1, h1⟩
      · exact ho.2 e (by simp [he])
    · simp [h2]

/-- C43: if in every map in template data at most one entry refers to packages, the order of map entries has no influence,
whatever the packages are called. -/
theorem C43_one_referring_partial {env : Env} (hb : OrderBlind env) (fuel : Nat) (p : Ptr) {h h1 : Heap} (hs : SameButOrder h h1)
    (hr : ∀ f, h.files p = some f → Reachable f.imports) (hm : ∀ f, h1.files p = some f → f.imports.Maps)
    (hd : ∀ q t, h.templs q = some t → PlainData t.data) (ho : ∀ q t, h.templs q = some t → t.data.oneReferring) :
    (renderFile env fuel p h1).1 = (renderFile env fuel p h).1 := by
  refine C43_same_order_partial hb fuel p hs hr hm hd fun q t t1 ht ht1 => ?_
  rcases hs.templs q with ⟨h7, -⟩ | ⟨u, u1, h7, h8, -, h9⟩
  · rw [ht] at h7; simp at h7
  · rw [ht] at h7; rw [ht1] at h8
    cases h7; cases h8
    have hp := hd q t ht
    rw [mentions_of_noSpecs h {} hp.noSpecs, mentions_of_noSpecs h1 {} (h9.plainData hp).noSpecs]
    rw [((Reordered.iface (acc := acceptsAll) h9).mentions_eq (by simpa only [TVal.oneReferring] using ho q t ht)).2]

/-! ### The import statements show whether the order has an influence -/

theorem statement_inj {tbl : Nat → Bool} {s s1 : ImportSpec} {r r1 : GoString} (h : (34 : UInt8) ∉ s.packageAlias)
    (h1 : (34 : UInt8) ∉ s1.packageAlias) (he : s.statement tbl ++ r = s1.statement tbl ++ r1) : s = s1 ∧ r = r1 := by
  let front : ImportSpec → GoString := fun s => if s.packageAlias = [] then [] else s.packageAlias ++ b! " "
  have hs : ∀ s : ImportSpec, ∀ r, s.statement tbl ++ r = b! "import " ++ (front s ++ (quote tbl s.importPath ++ (b! "\n" ++ r))) := by
    intro s r
    simp only [ImportSpec.statement, front]
    split <;> simp_all
  have hfront : ∀ s : ImportSpec, (34 : UInt8) ∉ s.packageAlias → ∀ b ∈ front s, (b != 34) = true := by
    intro s h b hb
    simp only [front] at hb
    split at hb
    · simp at hb
    · rw [List.mem_append] at hb
      rcases hb with hb | hb
      · simp only [bne_iff_ne, ne_eq]
        rintro rfl
        exact h hb
      · revert b; decide
  rw [hs, hs] at he
  have he := List.append_cancel_left he
  have hq : ∀ p r, quote tbl p ++ r = 34 :: (quoteLoop tbl p.length p ++ [34] ++ r) := fun _ _ => rfl
  have ht : ∀ s : ImportSpec, (34 : UInt8) ∉ s.packageAlias → ∀ r,
      (front s ++ (quote tbl s.importPath ++ r)).takeWhile (· != 34) = front s := by
    intro s h r
    rw [hq, List.takeWhile_append_of_pos (hfront s h)]
    simp
  have h2 : front s = front s1 := by rw [← ht s h, he, ht s1 h1]
  rw [h2] at he
  have he := List.append_cancel_left he
  have h3 := stringLit_quote tbl s.importPath (b! "\n" ++ r)
  rw [he, stringLit_quote] at h3
  simp only [Option.some.injEq, Prod.mk.injEq] at h3
  refine ⟨?_, ?_⟩
  · obtain ⟨a, p⟩ := s
    obtain ⟨a1, p1⟩ := s1
    simp only at h3
    simp only [ImportSpec.mk.injEq]
    refine ⟨?_, h3.1.symm⟩
    simp only [front] at h2
    split at h2 <;> split at h2
    · simp_all
    · simp at h2
    · simp at h2
    · exact List.append_cancel_right h2
  · exact (List.append_cancel_left h3.2).symm

/-- What follows the import statements begins with a newline, if there is anything. -/
def AfterImports (r : GoString) : Prop := r = [] ∨ ∃ s, r = 10 :: s

theorem statements_inj {tbl : Nat → Bool} : ∀ {l l1 : List ImportSpec} {r r1 : GoString},
    (∀ s ∈ l, (34 : UInt8) ∉ s.packageAlias) → (∀ s ∈ l1, (34 : UInt8) ∉ s.packageAlias) → AfterImports r → AfterImports r1 →
    (l.map (ImportSpec.statement tbl)).flatten ++ r = (l1.map (ImportSpec.statement tbl)).flatten ++ r1 → l = l1
  | [], [], _, _, _, _, _, _, _ => rfl
  | [], s :: l1, r, r1, _, _, hr, _, he => by
    exfalso
    simp only [List.map_nil, List.flatten_nil, List.nil_append, List.map_cons, List.flatten_cons, List.append_assoc] at he
    rw [he] at hr
    rcases hr with hr | ⟨x, hr⟩ <;> (rw [ImportSpec.statement] at hr; split at hr <;> simp at hr)
  | s :: l, [], r, r1, _, _, _, hr, he => by
    exfalso
    simp only [List.map_nil, List.flatten_nil, List.nil_append, List.map_cons, List.flatten_cons, List.append_assoc] at he
    rw [← he] at hr
    rcases hr with hr | ⟨x, hr⟩ <;> (rw [ImportSpec.statement] at hr; split at hr <;> simp at hr)
  | s :: l, s1 :: l1, r, r1, h, h1, hr, hr1, he => by
    simp only [List.map_cons, List.flatten_cons, List.append_assoc] at he
    obtain ⟨rfl, he'⟩ := statement_inj (h s (by simp)) (h1 s1 (by simp)) he
    rw [statements_inj (fun x hx => h x (by simp [hx])) (fun x hx => h1 x (by simp [hx])) hr hr1 he']

theorem concatText_afterImports {α : Type} {g : α → Outcome GoString} : ∀ {l : List α} {r : GoString},
    concatText (fun e => (g e).bind fun s => .ok (b! "\n" ++ s)) l = .ok r → AfterImports r
  | [], r, h => by
    rw [concatText] at h
    cases h
    exact .inl rfl
  | a :: l, r, h => by
    rw [concatText] at h
    rcases hg : g a with s | _ | _ <;> rw [hg] at h
    · rcases hl : concatText (fun e => (g e).bind fun s => .ok (b! "\n" ++ s)) l with y | _ | _ <;> rw [hl] at h <;> cases h
      exact .inr ⟨_, rfl⟩
    · cases h
    · cases h

theorem sameTables_of_specs {realName : GoString → GoString} {i j : Imports} (hi : Inv i) (hj : Inv j)
    (ht : TrueNames realName i) (ht1 : TrueNames realName j) (ho : j.pkgPath = i.pkgPath) (hs : j.importSpecs = i.importSpecs) :
    SameTables i j := by
  have key : ∀ {i j : Imports}, Inv i → Inv j → TrueNames realName i → TrueNames realName j → j.importSpecs = i.importSpecs →
      ∀ {p d}, i.importsByPath.get p = some d → j.importsByPath.get p = some d := by
    intro i j hi hj ht ht1 hs p d hd
    have hm := (mem_importSpecs hi ⟨if d.isAlias then d.packageName else [], p⟩).2 ⟨d, hd, rfl⟩
    rw [← hs] at hm
    obtain ⟨d1, hd1, ha⟩ := (mem_importSpecs hj _).1 hm
    have h1 := hi.nonempty _ _ hd
    have h2 := hj.nonempty _ _ hd1
    have h3 := ht p d hd
    have h4 := ht1 p d1 hd1
    rw [hd1]
    obtain ⟨n, a⟩ := d
    obtain ⟨n1, a1⟩ := d1
    cases a <;> cases a1 <;> simp_all
  refine .of_inv hi hj ho fun p => ?_
  cases hg : i.importsByPath.get p with
  | some d => exact key hi hj ht ht1 hs hg
  | none =>
    cases hg1 : j.importsByPath.get p with
    | none => rfl
    | some d =>
      have := key hj hi ht1 ht hs.symm hg1
      rw [hg] at this
      simp at this

/-- The text of a file up to its elements. -/
theorem GoFile.text_parts {env : Env} {h : Heap} {fuel : Nat} {f : GoFile} {text : GoString} (ht : f.text env h fuel = .ok text) :
    ∃ body, AfterImports body ∧ text = (writeComment f.fileComment ++ (if f.fileComment ≠ [] then b! "\n" else [])
      ++ writeComment f.packageComment ++ f.packageClause env.isPrint ++ b! "\n") ++
      ((f.imports.importSpecs.map (ImportSpec.statement env.isPrint)).flatten ++ body) := by
  unfold GoFile.text at ht
  rcases hc : concatText (fun e => (FileElem.text env h fuel e).bind fun s => .ok (b! "\n" ++ s)) f.elements with body | _ | _ <;>
    rw [hc] at ht <;> cases ht
  exact ⟨body, concatText_afterImports hc, by simp only [List.append_assoc]⟩

theorem renderFile_parts {env : Env} {fuel : Nat} {p : Ptr} {h h' : Heap} {text : GoString}
    (hr : renderFile env fuel p h = (.ok text, h')) {f : GoFile} (hf : h.files p = some f) :
    ∃ i, h'.files p = some { f with imports := i } ∧ ({ f with imports := i } : GoFile).text env h' fuel = .ok text ∧
      i.pkgPath = f.imports.pkgPath := by
  have hq := qualifyFile_of_renderFile hr
  unfold renderFile at hr
  rw [hq] at hr
  simp only [Prod.mk.injEq, and_true] at hr
  unfold qualifyFile at hq
  rw [hf] at hq
  dsimp only at hq
  rcases hx : QM.forEach (FileElem.qualify fuel) f.elements h f.imports with ⟨o, g, j⟩
  rw [hx] at hq
  simp only [Prod.mk.injEq] at hq
  obtain ⟨-, rfl⟩ := hq
  simp only [deref, upd_same] at hr
  have hev := (steps_fileElems fuel f.elements h f.imports).evolves
  rw [hx] at hev
  exact ⟨j, upd_same .., hr, hev.ext.own⟩

/-- C43: with truthful package names, another order of map entries gives the same text exactly if it gives the same import
statements. (The aliases must not contain quotation marks.) -/
theorem C43_statements_iff_partial {realName : GoString → GoString} {env : Env} (hb : OrderBlind env) {fuel : Nat} {p : Ptr}
    {h h1 h' h1' : Heap} {f f1 f' f1' : GoFile} {text text1 : GoString} (hs : SameButOrder h h1)
    (hf : h.files p = some f) (hf1 : h1.files p = some f1) (ht : TruthfulInput realName h f) (ht1 : TruthfulInput realName h1 f1)
    (hd : ∀ q t, h.templs q = some t → PlainData t.data)
    (hr : renderFile env fuel p h = (.ok text, h')) (hr1 : renderFile env fuel p h1 = (.ok text1, h1'))
    (hf' : h'.files p = some f') (hf1' : h1'.files p = some f1')
    (hq : ∀ s ∈ f'.imports.importSpecs, (34 : UInt8) ∉ s.packageAlias)
    (hq1 : ∀ s ∈ f1'.imports.importSpecs, (34 : UInt8) ∉ s.packageAlias) :
    text1 = text ↔ f1'.imports.importSpecs = f'.imports.importSpecs := by
  have hfe : f1 = { f with imports := f1.imports } ∧ f1.imports.pkgPath = f.imports.pkgPath := by
    rcases hs.files p with ⟨h3, -⟩ | ⟨g, g1, h3, h4, h5, h6⟩
    · rw [hf] at h3; simp at h3
    · rw [hf] at h3; rw [hf1] at h4
      cases h3; cases h4; exact ⟨h5, h6.own⟩
  have reach : ∀ {h f}, TruthfulInput realName h f → Reachable f.imports := fun {h f} ht =>
    ht.history.elim fun hist k => ⟨_, hist, k.1⟩
  have hd1 : ∀ q t1, h1.templs q = some t1 → PlainData t1.data := by
    intro q t1 ht1
    rcases hs.templs q with ⟨-, h8⟩ | ⟨u, u1, h7, h8, -, h9⟩
    · rw [ht1] at h8; simp at h8
    · rw [ht1] at h8
      cases h8
      exact h9.plainData (hd q u h7)
  obtain ⟨i, e1, e2, o0⟩ := renderFile_parts hr hf
  obtain ⟨i1, e3, e4, o1⟩ := renderFile_parts hr1 hf1
  rw [hf'] at e1
  rw [hf1'] at e3
  cases e1
  cases e3
  constructor
  · rintro rfl
    obtain ⟨b, h2, h3⟩ := GoFile.text_parts e2
    obtain ⟨b1, h4, h5⟩ := GoFile.text_parts e4
    rw [h3] at h5
    rw [hfe.1] at h5
    have h6 := List.append_cancel_left h5
    exact (statements_inj hq hq1 h2 h4 h6).symm
  · intro he
    have later : ∀ {h f h' i text}, h.files p = some f → renderFile env fuel p h = (.ok text, h') →
        h'.files p = some { f with imports := i } → Later h f.imports h' i := by
      intro h f h' i text hf hr hf'
      obtain ⟨g, g', h1, h2, h3, h4, h5⟩ := qualifyFile_settled (qualifyFile_of_renderFile hr)
      rw [hf] at h1
      rw [hf'] at h2
      cases h1; cases h2
      exact h5
    have l0 := later hf hr hf'
    have l1 := later hf1 hr1 hf1'
    obtain ⟨v0, n0⟩ := ht.after (.inl fun q t k => (hd q t k).noSpecs) l0
    obtain ⟨v1, n1⟩ := ht1.after (.inl fun q t k => (hd1 q t k).noSpecs) l1
    have hown : i1.pkgPath = i.pkgPath := o1.trans (hfe.2.trans o0.symm)
    have htab := sameTables_of_specs v0 v1 n0 n1 hown he
    have := C43_same_imports_partial hb fuel p hs (fun g hg => by rw [hf] at hg; cases hg; exact reach ht)
      (fun g hg => by rw [hf1] at hg; cases hg; exact ⟨(reach ht1).inv.nodupPaths, (reach ht1).inv.nodupNames⟩) hd ?_
    · rw [hr, hr1] at this
      exact Outcome.ok.inj this
    · intro g g1 hg hg1
      rw [hr, hf'] at hg
      rw [hr1, hf1'] at hg1
      cases hg; cases hg1
      exact htab

/-! ### Examples -/

/-- A map with three entries, one of which refers to a package; it has the name of y/q, which the file imports before. -/
def exOneReferring : List (TVal × TVal) :=
  [(.scalar 0, .scalar 7), (.scalar 1, .symbol ⟨⟨b! "x/q", b! "q"⟩, b! "U"⟩), (.scalar 2, .scalar 8)]

/-- by `C43_one_referring_partial`: the package is renamed in any order -/
example {es : List (TVal × TVal)} (hp : exOneReferring.Perm es) : (renderFile exBlindEnv 3 0 (exMapFile es)).1 =
    .ok (b! "package p\n\nimport q1 \"x/q\"\nimport \"y/q\"\n\nfunc F() {\nq.N\n}\n") := by
  have h1 : (renderFile exBlindEnv 3 0 (exMapFile exOneReferring)).1 =
      .ok (b! "package p\n\nimport q1 \"x/q\"\nimport \"y/q\"\n\nfunc F() {\nq.N\n}\n") := by decide
  rw [← h1]
  refine C43_one_referring_partial exBlindEnv_orderBlind 3 0 (exMapFile_same hp) (fun _ h => exMapFile_reachable h)
    (fun _ h => exMapFile_maps h) (fun _ _ h => exMapFile_plain ⟨rfl, rfl, rfl, rfl, rfl, rfl⟩ h) fun q t ht => ?_
  simp only [exMapFile] at ht
  split at ht
  · cases ht
    simp only [TVal.oneReferring, exOneReferring, oneReferringEntries, and_self, and_true]
    decide
  · simp at ht

/-- A slice of maps, in which both packages called a are mentioned, but always x/a first. -/
def exFirstsSame (es : List (TVal × TVal)) : List (TVal × TVal) :=
  [(.scalar 0, .slice [.symbol (exSymIn (b! "a")), .map es])]

example : firstPackages ((TVal.iface acceptsAll (.map (exFirstsSame exClash))).mentions {}) =
      [⟨b! "x/a", b! "a"⟩, ⟨b! "y/a", b! "a"⟩] ∧
    firstPackages ((TVal.iface acceptsAll (.map (exFirstsSame exClash.reverse))).mentions {}) =
      [⟨b! "x/a", b! "a"⟩, ⟨b! "y/a", b! "a"⟩] := by decide

/-- by `C43_same_order_partial` -/
example : (renderFile exBlindEnv 3 0 (exMapFile (exFirstsSame exClash.reverse))).1 =
    (renderFile exBlindEnv 3 0 (exMapFile (exFirstsSame exClash))).1 := by
  refine C43_same_order_partial exBlindEnv_orderBlind 3 0 ⟨rfl, fun p => ?_, fun p => ?_⟩ (fun _ h => exMapFile_reachable h)
    (fun _ h => exMapFile_maps h) (fun _ _ h => exMapFile_plain ⟨rfl, rfl, rfl, rfl, rfl, rfl⟩ h) fun q t t1 ht ht1 => ?_
  · simp only [exMapFile]
    split
    · exact .inr ⟨_, _, rfl, rfl, rfl, .refl _⟩
    · exact .inl ⟨rfl, rfl⟩
  · simp only [exMapFile]
    split
    · refine .inr ⟨_, _, rfl, rfl, rfl, ?_⟩
      exact .value (a := []) (b := []) (.slice (a := [_]) (b := []) (.perm (List.reverse_perm _).symm))
    · exact .inl ⟨rfl, rfl⟩
  · simp only [exMapFile] at ht ht1
    split at ht
    · rw [if_pos ‹_›] at ht1
      cases ht; cases ht1
      decide
    · simp at ht

/-- What the packages in the example are called. -/
def exClashName (path : GoString) : GoString :=
  if path = b! "x/p" then b! "p" else if path = b! "y/q" then b! "q" else b! "a"

theorem exMapFile_truthful {es : List (TVal × TVal)} {f : GoFile} (hf : (exMapFile es).files 0 = some f)
    (he : ∀ pk ∈ (TVal.iface acceptsAll (.map es)).packages, pk.name = exClashName pk.importPath) :
    TruthfulInput exClashName (exMapFile es) f := by
  cases hf
  refine ⟨⟨[], rfl, by simp⟩, fun pk hm => ?_⟩
  refine (?_ : pk.name = [] ∨ pk.name = exClashName pk.importPath).imp id .inl
  cases hm with
  | file h =>
    simp only [exMapFile] at h
    split at h
    · cases h; right; decide
    · simp at h
  | value h _ _ => simp [exMapFile] at h
  | type h _ => simp [exMapFile] at h
  | field h _ _ => simp [exMapFile] at h
  | embed h => simp [exMapFile] at h
  | method h _ => simp [exMapFile] at h
  | func h h2 =>
    simp only [exMapFile] at h
    split at h
    · cases h; simp [Signature.symbols, symbolsArgs] at h2
    · simp at h
  | arg h h2 h3 =>
    simp only [exMapFile] at h
    split at h
    · cases h
      simp only [List.mem_singleton] at h2
      subst h2
      simp [Arg.packages] at h3
      subst h3
      right; decide
    · simp at h
  | templ h h2 =>
    simp only [exMapFile] at h
    split at h
    · cases h
      exact .inr (he pk h2)
    · simp at h

/-- by `C43_statements_iff_partial`: the two orders of `exClash` give different import statements, so the texts differ -/
example {h' h1' : Heap} {text text1 : GoString} (hr : renderFile exBlindEnv 3 0 (exMapFile exClash) = (.ok text, h'))
    (hr1 : renderFile exBlindEnv 3 0 (exMapFile exClash.reverse) = (.ok text1, h1')) : text1 ≠ text := by
  have e : h' = (renderFile exBlindEnv 3 0 (exMapFile exClash)).2 := by rw [hr]
  have e1 : h1' = (renderFile exBlindEnv 3 0 (exMapFile exClash.reverse)).2 := by rw [hr1]
  intro he
  have := (C43_statements_iff_partial exBlindEnv_orderBlind (exMapFile_same (List.reverse_perm exClash).symm) rfl rfl
    (exMapFile_truthful rfl (by decide)) (exMapFile_truthful rfl (by decide))
    (fun _ _ h => exMapFile_plain ⟨rfl, rfl, rfl, rfl, rfl, rfl⟩ h) hr hr1 (by rw [e]; rfl) (by rw [e1]; rfl) (by decide) (by decide)).1 he
  revert this
  decide

end Gopoet
