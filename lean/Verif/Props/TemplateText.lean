import Mathlib.Tactic.ByContra
import Verif.Proof.TemplateText
/-! Property C61: what a template shows for a reference is a reference to the same thing. -/

namespace Gopoet
open Imports

theorem HasName.later {j k : Imports} {p : Package} (h : HasName j p) (he : Ext j k) : HasName k p := by
  rcases h with h | h
  · exact .inl (h.trans he.own.symm)
  · right
    cases hg : j.importsByPath.get p.importPath with
    | none => exact absurd hg h
    | some d => rw [he.keeps _ _ hg]; simp

theorem HasName.qualifierOf {j k : Imports} {p : Package} (h : HasName j p) (he : Ext j k) :
    k.qualifierOf p.importPath = j.qualifierOf p.importPath := by
  simp only [Imports.qualifierOf, he.own]
  by_cases ho : p.importPath = j.pkgPath
  · rw [if_pos ho, if_pos ho]
  · rw [if_neg ho, if_neg ho]
    cases hg : j.importsByPath.get p.importPath with
    | none => exact absurd hg (h.resolve_left ho)
    | some d => rw [he.keeps _ _ hg]

theorem Reference.text_later {tbl : Nat → Bool} {j k : Imports} (hj : Inv j) (hk : Inv k) (he : Ext j k) {r : Reference}
    (hr : ∀ p ∈ r.mentions, HasName j p) : r.text tbl k = r.text tbl j := by
  rw [text_eq hj hr, text_eq hk fun p hp => (hr p hp).later he]
  have sym : ∀ s : Symbol, (∀ p ∈ packagesOf [s], HasName j p) → s.requalify k.qualifierOf = s.requalify j.qualifierOf := by
    intro s hs
    by_cases hb : s.package = ⟨[], []⟩
    · simp [Symbol.requalify, hb]
    · have := (hs s.package (by simp [packagesOf, hb])).qualifierOf he
      simp [Symbol.requalify, hb, this]
  cases r with
  | package p => simp only [Reference.textWith, (hr p (by simp [Reference.mentions])).qualifierOf he]
  | symbol s => simp only [Reference.textWith, sym s hr]
  | method m => simp only [Reference.textWith, sym m.type hr]
  | type t =>
    rw [Reference.textWith, Reference.textWith]
    refine congrArg (TypeName.string tbl) (mapSymbols_congr t fun s hs => sym s fun p hp => hr p ?_)
    simp only [packagesOf, List.map_cons, List.map_nil, List.mem_filter, List.mem_singleton] at hp
    simp only [Reference.mentions, packagesOf, List.mem_filter, List.mem_map]
    exact ⟨⟨s, hs, hp.1.symm⟩, hp.2⟩

/-- A value in the data and what becomes of it. -/
theorem shown_iff (tbl : Nat → Bool) (own : TVal → Shown) {h g : Heap} (hg : SpecNamesStay h g) {j : Imports}
    (hj : Inv j) {w : TVal} {a : Bool} {r : Reference} (hr : w.ref h a = some r) (hv : w.validTypes = true)
    (hm : ∀ p ∈ w.mentions h, HasName j p) :
    (∀ k, Inv k → Ext j k → ∃ s, r.text tbl k = .ok s ∧ (w.requalify h j.qualifierOf).shown tbl own g a = .str s) ↔
      w.ShownRight tbl own h j a := by
  obtain ⟨h1, h2⟩ := ref_part h w a hr
  constructor
  · intro hall
    obtain ⟨s, hs, hw⟩ := hall j hj (.refl _)
    have hms : w.methodSpec h = false := by
      by_contra hne
      obtain ⟨m, rfl, hm'⟩ := shown_methodSpec tbl own hg j.qualifierOf w a hr (by simpa using hne)
      rw [hm'] at hw
      simp only [Shown.str.injEq] at hw
      simp only [Reference.text, Outcome.ok.injEq, ← hw] at hs
      have := congrArg List.length hs
      simp only [List.length_append, List.length_cons, List.length_nil] at this
      omega
    refine ⟨hms, fun hf => ?_⟩
    by_cases he : w.requalify h j.qualifierOf = w
    · refine .inr ⟨r, s, hr, hs, ?_⟩
      rw [he, shown_foreign tbl own h g w a hf] at hw
      exact hw
    · exact .inl he
  · rintro ⟨hms, hf⟩ k hk he
    have hp : ∀ p ∈ r.mentions, HasName j p := fun p hp => hm p (h2 hms p hp)
    rw [Reference.text_later hj hk he hp]
    obtain ⟨s, hs⟩ := textWith_ok tbl j.qualifierOf (h1 hv)
    have direct : (w.foreign = true → w.requalify h j.qualifierOf ≠ w) →
        ∃ s, r.text tbl j = .ok s ∧ (w.requalify h j.qualifierOf).shown tbl own g a = .str s := fun hf' =>
      ⟨s, by rw [text_eq hj hp, hs], by
        rw [shown_requalify tbl own hg j.qualifierOf w a hr hms hf', hs]; rfl⟩
    by_cases hfo : w.foreign = true
    · rcases hf hfo with hne | ⟨r', s', h4, h5, h6⟩
      · exact direct fun _ => hne
      · by_cases he' : w.requalify h j.qualifierOf = w
        · rw [hr] at h4
          obtain rfl := Option.some.inj h4
          exact ⟨s', h5, by rw [he', shown_foreign tbl own h g w a hfo]; exact h6⟩
        · exact direct fun _ => he'
    · exact direct fun h' => absurd h' hfo

theorem mentions_hasName {h : Heap} {v v' : TVal} {i j : Imports} (hq : qualifyTemplateData h v i = (.ok v', j)) :
    Ext i j ∧ ∀ p ∈ (TVal.iface acceptsAll v).mentions h, HasName j p := by
  obtain rfl := effect_qualifyTemplateData h v _ _ _ hq
  have he := (after_registerAll i ((TVal.iface acceptsAll v).mentions h)).ext
  exact ⟨he, fun p hp => (registerAll_known i _ p hp).imp (fun h => h.trans he.own.symm) id⟩

theorem inv_after_data {h : Heap} {v v' : TVal} {i j : Imports} (hi : Inv i) (hq : qualifyTemplateData h v i = (.ok v', j)) :
    Inv j := by
  obtain rfl := effect_qualifyTemplateData h v _ _ _ hq
  exact (after_registerAll i _).inv hi

/-- The full claim of C61: whenever `QualifyTemplateData` returns and nothing gets lost (C42), every value that
stands for a reference and that a template can get at is shown, then and after any later calls, as the reference to the
same element with the qualifier that the imports give. -/
def C61_full : Prop := ∀ (tbl : Nat → Bool) (own : TVal → Shown) (h : Heap) (i j : Imports) (v v' w : TVal)
  (path : List TStep) (a : Bool) (r : Reference), GoTypeTexts own → Reachable i →
  (TVal.iface acceptsAll v).validTypes = true → (TVal.iface acceptsAll v).flatIfaces = true →
  qualifyTemplateData h v i = (.ok v', j) → v.Preserved h j.qualifierOf →
  (TVal.iface acceptsAll v).follow false path = some (a, w) → w.ref h a = some r →
  ∀ later : List Call, ∃ w' s, (TVal.iface acceptsAll v').follow false path = some (a, w') ∧
    r.text tbl (j.after later) = .ok s ∧ w'.shown tbl own h a = .str s

/-- C61, exactly: the value is shown as the right reference if and only if it is no method that is given as a spec and,
if it is a value of go/types or reflect, it is replaced or its own `String` method gives the right text. -/
theorem C61_exactly_partial (tbl : Nat → Bool) (own : TVal → Shown) {h g : Heap} {i j : Imports} {v v' w : TVal}
    {path : List TStep} {a : Bool} {r : Reference} (hi : Reachable i) (hv : (TVal.iface acceptsAll v).validTypes = true)
    (hn : (TVal.iface acceptsAll v).flatIfaces = true) (hq : qualifyTemplateData h v i = (.ok v', j))
    (hp : v.Preserved h j.qualifierOf) (hf : (TVal.iface acceptsAll v).follow false path = some (a, w))
    (hr : w.ref h a = some r) (hg : SpecNamesStay h g) :
    ∃ w', (TVal.iface acceptsAll v').follow false path = some (a, w') ∧
      ((∀ later : List Call, ∃ s, r.text tbl (j.after later) = .ok s ∧ w'.shown tbl own g a = .str s) ↔
        w.ShownRight tbl own h j a) := by
  have hre := (C42_result_iff_partial hv hn hq).2 hp
  have hw := follow_requalify h j.qualifierOf path hf
  rw [hre] at hw
  obtain ⟨p1, p2⟩ := part_follow h path hf
  have hj := inv_after_data hi.inv hq
  have key := shown_iff tbl own hg hj hr (p1 hv) fun p hp => (mentions_hasName hq).2 p (p2 p hp)
  refine ⟨_, hw, ?_⟩
  rw [← key]
  constructor
  · intro hall k hk he
    obtain ⟨s, h1, h2⟩ := hall []
    refine ⟨s, ?_, h2⟩
    have hsr : w.ShownRight tbl own h j a := by
      rw [← key]
      by_contra hcon
      -- the text at the end of the calls is that at `j`
      obtain ⟨hms, -⟩ | hms := Classical.em (w.methodSpec h = false ∧ True)
      · apply hcon
        intro k hk he
        refine ⟨s, ?_, h2⟩
        rw [Reference.text_later hj hk he fun p hp => (mentions_hasName hq).2 p (p2 p ((ref_part h w a hr).2 hms p hp))]
        exact h1
      · simp only [and_true, Bool.not_eq_false] at hms
        obtain ⟨m, rfl, hm'⟩ := shown_methodSpec tbl own hg j.qualifierOf w a hr hms
        rw [hm'] at h2
        simp only [Shown.str.injEq] at h2
        simp only [Reference.text, Outcome.ok.injEq, ← h2] at h1
        have := congrArg List.length h1
        simp only [List.length_append, List.length_cons, List.length_nil] at this
        omega
    rw [Reference.text_later hj hk he fun p hp => (mentions_hasName hq).2 p (p2 p ((ref_part h w a hr).2 hsr.1 p hp))]
    exact h1
  · intro hall later
    have hev := evolves_after later j
    exact hall _ (hev.inv hj) hev.ext

/-- C61: so a `Package`, `Symbol`, `MethodReference`, `TypeName`, `InterfaceEmbed`, or a spec of a constant, a
variable, a type or a function without receiver is always shown right.

Missing from the full property: methods that are given as specs, and values of go/types and reflect that are not
replaced and whose own `String` methods give another text. -/
theorem C61_shown_partial (tbl : Nat → Bool) (own : TVal → Shown) {h g : Heap} {i j : Imports} {v v' w : TVal}
    {path : List TStep} {a : Bool} {r : Reference} (hi : Reachable i) (hv : (TVal.iface acceptsAll v).validTypes = true)
    (hn : (TVal.iface acceptsAll v).flatIfaces = true) (hq : qualifyTemplateData h v i = (.ok v', j))
    (hp : v.Preserved h j.qualifierOf) (hf : (TVal.iface acceptsAll v).follow false path = some (a, w))
    (hr : w.ref h a = some r) (hg : SpecNamesStay h g) (hm : w.methodSpec h = false) (hfo : w.foreign = false) :
    ∃ w', (TVal.iface acceptsAll v').follow false path = some (a, w') ∧
      ∀ later : List Call, ∃ s, r.text tbl (j.after later) = .ok s ∧ w'.shown tbl own g a = .str s := by
  obtain ⟨w', h1, h2⟩ := C61_exactly_partial tbl own hi hv hn hq hp hf hr hg
  exact ⟨w', h1, h2.2 ⟨hm, fun h => by rw [hfo] at h; simp at h⟩⟩

/-! ### Whole templates -/

theorem joinAll_congr {α β : Type} (f : α → Option GoString) (g : β → Option GoString) (e : α → β) : ∀ {l : List α} {s : GoString},
    (∀ x ∈ l, ∀ s, f x = some s → g (e x) = some s) → joinAll f l = some s → joinAll g (l.map e) = some s
  | [], s, _, h => h
  | x :: l, s, hx, h => by
    rw [joinAll] at h
    rw [List.map_cons, joinAll]
    cases h1 : f x with
    | none => simp [h1] at h
    | some y =>
      cases h2 : joinAll f l with
      | none => simp [h1, h2] at h
      | some z =>
        simp only [h1, h2] at h
        rw [hx x (by simp) y h1, joinAll_congr f g e (fun x hx' => hx x (by simp [hx'])) h2]
        exact h

section
variable {tbl : Nat → Bool} {own : TVal → Shown} {sc : Scalars} {h g : Heap} {j k : Imports}

/-- What the leaves give. -/
theorem means_shown (hg : SpecNamesStay h g) (hj : Inv j) (hk : Inv k) (he : Ext j k) {a : Bool} {w : TVal} {s : GoString}
    (hv : w.validTypes = true) (hm : ∀ p ∈ w.mentions h, HasName j p) (hs : w.means tbl own h k a = some s)
    (hr : w.ShownRight tbl own h j a) : ((w.requalify h j.qualifierOf).shown tbl own g a).text = some s := by
  rw [TVal.means] at hs
  cases href : w.ref h a with
  | some r =>
    simp only [href] at hs
    obtain ⟨s', h1, h2⟩ := (shown_iff tbl own hg hj href hv hm).2 hr k hk he
    simp only [h1, Option.some.injEq] at hs
    rw [h2, ← hs]; rfl
  | none =>
    simp only [href] at hs
    rcases hi : w.indirect a with ⟨b, u⟩
    rw [hi] at hs
    cases u <;> simp only [reduceCtorEq] at hs
    have := indirect_requalify h j.qualifierOf w a hi rfl
    rw [TVal.shown, this, TVal.requalify]
    · cases b <;> exact hs
    all_goals simp

/-- What is needed of the values that paths begin at. -/
def ScopeOk (h : Heap) (j : Imports) (σ : TScope) : Prop :=
  ∀ x ∈ σ.dot :: σ.vars, x.2.validTypes = true ∧ ∀ p ∈ x.2.mentions h, HasName j p

theorem ScopeOk.get {σ : TScope} (ho : ScopeOk h j σ) {p : TPath} {a : Bool} {w : TVal} (hg : σ.get p = some (a, w)) :
    w.validTypes = true ∧ ∀ p ∈ w.mentions h, HasName j p := by
  obtain ⟨x, hx, p1, p2⟩ := part_get h hg
  exact ⟨p1 (ho x hx).1, fun p hp => (ho x hx).2 p (p2 p hp)⟩

theorem ScopeOk.push {σ : TScope} (ho : ScopeOk h j σ) {x : Bool × TVal}
    (hx : x.2.validTypes = true ∧ ∀ p ∈ x.2.mentions h, HasName j p) : ScopeOk h j (σ.push x) := by
  intro y hy
  simp only [TScope.push, List.mem_cons, List.mem_append, List.not_mem_nil, or_false] at hy
  rcases hy with rfl | hy | rfl
  · exact ho _ (by simp)
  · exact ho _ (by simp [hy])
  · exact hx

theorem ScopeOk.iterate {σ : TScope} (ho : ScopeOk h j σ) {x y : Bool × TVal}
    (hx : x.2.validTypes = true ∧ ∀ p ∈ x.2.mentions h, HasName j p)
    (hy : y.2.validTypes = true ∧ ∀ p ∈ y.2.mentions h, HasName j p) : ScopeOk h j ⟨x, σ.vars ++ [y, x]⟩ := by
  intro z hz
  simp only [List.mem_cons, List.mem_append, List.not_mem_nil, or_false] at hz
  rcases hz with rfl | hz | rfl | rfl
  · exact hx
  · exact ho _ (by simp [hz])
  · exact hy
  · exact hx

theorem ScopeOk.enter {σ : TScope} (ho : ScopeOk h j σ) {x : Bool × TVal}
    (hx : x.2.validTypes = true ∧ ∀ p ∈ x.2.mentions h, HasName j p) : ScopeOk h j ⟨x, σ.vars ++ [x]⟩ := by
  intro y hy
  simp only [List.mem_cons, List.mem_append, List.not_mem_nil, or_false] at hy
  rcases hy with rfl | hy | rfl
  · exact hx
  · exact ho _ (by simp [hy])
  · exact hx

mutual
theorem run_means (hg : SpecNamesStay h g) (hj : Inv j) (hk : Inv k) (he : Ext j k) : ∀ (t : TNode) {σ : TScope} {s : GoString},
    ScopeOk h j σ → t.run sc (fun a v => v.means tbl own h k a) σ = some s →
    (∀ x ∈ t.shows sc σ, x.2.ShownRight tbl own h j x.1) →
    t.run sc (fun a v => (v.shown tbl own g a).text) (σ.requalify h j.qualifierOf) = some s
  | .text s, σ, _, _, hs, _ => by rw [TNode.run] at hs ⊢; exact hs
  | .show path, σ, s, ho, hs, hr => by
    rw [TNode.run, Option.bind_eq_some_iff] at hs
    obtain ⟨⟨b, w⟩, h1, h2⟩ := hs
    obtain ⟨p1, p2⟩ := ho.get h1
    rw [TNode.run, Option.bind_eq_some_iff]
    refine ⟨_, get_requalify h j.qualifierOf h1, ?_⟩
    exact means_shown hg hj hk he p1 p2 h2 (hr (b, w) (by rw [TNode.shows, h1]; simp))
  | .size path, σ, s, ho, hs, hr => by
    rw [TNode.run, Option.bind_eq_some_iff] at hs
    obtain ⟨⟨b, w⟩, h1, h2⟩ := hs
    rw [Option.bind_eq_some_iff] at h2
    obtain ⟨n, h3, h4⟩ := h2
    rw [TNode.run, Option.bind_eq_some_iff]
    refine ⟨_, get_requalify h j.qualifierOf h1, ?_⟩
    rw [Option.bind_eq_some_iff]
    exact ⟨n, size_requalify h j.qualifierOf h3, h4⟩
  | .test cond body other, σ, s, ho, hs, hr => by
    rw [TNode.run, Option.bind_eq_some_iff] at hs
    obtain ⟨b, h1, h2⟩ := hs
    rw [TNode.run, Option.bind_eq_some_iff]
    refine ⟨_, eval_requalify sc h j.qualifierOf cond h1, ?_⟩
    rw [TNode.shows, h1] at hr
    cases b with
    | true => exact runNodes_means hg hj hk he body ho h2 hr
    | false => exact runNodes_means hg hj hk he other ho h2 hr
  | .call path body, σ, s, ho, hs, hr => by
    rw [TNode.run, Option.bind_eq_some_iff] at hs
    obtain ⟨⟨b, w⟩, h1, h2⟩ := hs
    rw [TNode.run, Option.bind_eq_some_iff]
    refine ⟨_, get_requalify h j.qualifierOf h1, ?_⟩
    rw [TNode.shows, h1] at hr
    refine runNodes_means hg hj hk he body (σ := ⟨(b, w), [(b, w)]⟩) (fun x hx => ?_) h2 hr
    simp only [List.mem_cons, List.not_mem_nil, or_false, or_self] at hx
    rw [hx]
    exact ho.get h1
  | .define path rest, σ, s, ho, hs, hr => by
    rw [TNode.run, Option.bind_eq_some_iff] at hs
    obtain ⟨⟨b, w⟩, h1, h2⟩ := hs
    rw [TNode.run, Option.bind_eq_some_iff]
    refine ⟨_, get_requalify h j.qualifierOf h1, ?_⟩
    rw [TNode.shows, h1] at hr
    have := runNodes_means hg hj hk he rest (ho.push (ho.get h1)) h2 hr
    rwa [push_requalify] at this
  | .range path body other, σ, s, ho, hs, hr => by
    rw [TNode.run, Option.bind_eq_some_iff] at hs
    obtain ⟨⟨b, w⟩, h1, h2⟩ := hs
    rw [Option.bind_eq_some_iff] at h2
    obtain ⟨⟨c, vs⟩, h3, h4⟩ := h2
    rw [TNode.run, Option.bind_eq_some_iff]
    refine ⟨_, get_requalify h j.qualifierOf h1, ?_⟩
    rw [Option.bind_eq_some_iff]
    refine ⟨_, items_requalify sc h j.qualifierOf h3, ?_⟩
    rw [TNode.shows, h1] at hr
    simp only [Option.bind_some, h3] at hr
    dsimp only at h4 ⊢
    rw [List.isEmpty_map]
    by_cases hem : vs.isEmpty = true
    · rw [if_pos hem] at h4 hr ⊢
      exact runNodes_means hg hj hk he other ho h4 hr
    · rw [if_neg hem] at h4 hr ⊢
      refine joinAll_congr _ _ _ (fun x hx s hs => ?_) h4
      have ho' := ho.get h1
      have hx' := part_items sc h h3 hx
      have := runNodes_means hg hj hk he body (ho.iterate (x := (c, x.2)) (y := (false, x.1))
          ⟨hx'.2.1 ho'.1, fun p hp => ho'.2 p (hx'.2.2 p hp)⟩ ⟨hx'.1.1 ho'.1, fun p hp => ho'.2 p (hx'.1.2 p hp)⟩) hs
        fun y hy => hr y (List.mem_flatMap.2 ⟨x, hx, hy⟩)
      simpa [TScope.requalify] using this
  | .when path body other, σ, s, ho, hs, hr => by
    rw [TNode.run, Option.bind_eq_some_iff] at hs
    obtain ⟨⟨b, w⟩, h1, h2⟩ := hs
    rw [TNode.run, Option.bind_eq_some_iff]
    refine ⟨_, get_requalify h j.qualifierOf h1, ?_⟩
    rw [TNode.shows, h1] at hr
    dsimp only at h2 hr ⊢
    rw [truth_requalify]
    by_cases ht : w.truth sc = true
    · rw [if_pos ht] at h2 hr ⊢
      have := runNodes_means hg hj hk he body (ho.push (ho.get h1)) h2 hr
      rwa [push_requalify] at this
    · rw [if_neg ht] at h2 hr ⊢
      have := runNodes_means hg hj hk he other (ho.push (ho.get h1)) h2 hr
      rwa [push_requalify] at this
  | .with path body other, σ, s, ho, hs, hr => by
    rw [TNode.run, Option.bind_eq_some_iff] at hs
    obtain ⟨⟨b, w⟩, h1, h2⟩ := hs
    rw [TNode.run, Option.bind_eq_some_iff]
    refine ⟨_, get_requalify h j.qualifierOf h1, ?_⟩
    rw [TNode.shows, h1] at hr
    dsimp only at h2 hr ⊢
    rw [truth_requalify]
    by_cases ht : w.truth sc = true
    · rw [if_pos ht] at h2 hr ⊢
      have := runNodes_means hg hj hk he body (ho.enter (x := (b, w)) (ho.get h1)) h2 hr
      simpa [TScope.requalify] using this
    · rw [if_neg ht] at h2 hr ⊢
      have := runNodes_means hg hj hk he other (ho.push (ho.get h1)) h2 hr
      rwa [push_requalify] at this
theorem runNodes_means (hg : SpecNamesStay h g) (hj : Inv j) (hk : Inv k) (he : Ext j k) : ∀ (ts : List TNode) {σ : TScope} {s : GoString},
    ScopeOk h j σ → runNodes sc (fun a v => v.means tbl own h k a) ts σ = some s →
    (∀ x ∈ showsNodes sc ts σ, x.2.ShownRight tbl own h j x.1) →
    runNodes sc (fun a v => (v.shown tbl own g a).text) ts (σ.requalify h j.qualifierOf) = some s
  | [], σ, s, _, hs, _ => by rw [runNodes] at hs ⊢; exact hs
  | t :: ts, σ, s, ho, hs, hr => by
    rw [runNodes] at hs ⊢
    rw [showsNodes] at hr
    cases h1 : t.run sc (fun a v => v.means tbl own h k a) σ with
    | none => simp [h1] at hs
    | some x =>
      cases h2 : runNodes sc (fun a v => v.means tbl own h k a) ts σ with
      | none => simp [h1, h2] at hs
      | some y =>
        simp only [h1, h2] at hs
        rw [run_means hg hj hk he t ho h1 fun x hx => hr x (by simp [hx]),
          runNodes_means hg hj hk he ts ho h2 fun x hx => hr x (by simp [hx])]
        exact hs
end
end

/-- C61: a template gives, for the qualified data, the text that it should have: each reference that it shows, in loops
and conditions or not, is the reference to the same element as the imports have it then and later, everything else is as it is. (See
`C61_shown_partial` for what is missing.) -/
theorem C61_template_partial {tbl : Nat → Bool} {own : TVal → Shown} {sc : Scalars} {h g : Heap} {i j : Imports} {v v' : TVal}
    {t : List TNode} {s : GoString} (hi : Reachable i) (hv : (TVal.iface acceptsAll v).validTypes = true)
    (hn : (TVal.iface acceptsAll v).flatIfaces = true) (hq : qualifyTemplateData h v i = (.ok v', j))
    (hp : v.Preserved h j.qualifierOf) (hg : SpecNamesStay h g) (later : List Call)
    (hs : templateMeans tbl own sc h (j.after later) t v = some s)
    (hr : ∀ x ∈ showsNodes sc t (.start v), x.2.ShownRight tbl own h j x.1) :
    execute tbl own sc g t v' = some s := by
  have hre := (C42_result_iff_partial hv hn hq).2 hp
  have hj := inv_after_data hi.inv hq
  have hev := evolves_after later j
  have := runNodes_means hg hj (hev.inv hj) hev.ext t (σ := .start v)
    (fun x hx => by
      simp only [TScope.start, List.mem_cons, List.not_mem_nil, or_false, or_self] at hx
      subst hx
      exact ⟨hv, (mentions_hasName hq).2⟩) hs hr
  simp only [TScope.requalify, TScope.start, List.map_cons, List.map_nil, hre] at this
  exact this

/-- C61: and so does the code that is rendered: `templ.qualify` and later `templ.writeTo`, if the template that has the
number `n` consists of the given parts. -/
theorem C61_code_partial {env : Env} {own : TVal → Shown} {sc : Scalars} {h h' g : Heap} {i j : Imports} {p : Ptr} {n : Nat} {v : TVal}
    {t : List TNode} {s : GoString} (henv : ∀ g d, env.exec g n d = execute env.isPrint own sc g t d)
    (hi : Reachable i) (ht : h.templs p = some ⟨n, v⟩) (hv : (TVal.iface acceptsAll v).validTypes = true)
    (hn : (TVal.iface acceptsAll v).flatIfaces = true) (hq : (CodeElem.templ p).qualify h i = (.ok (), h', j))
    (hp : v.Preserved h j.qualifierOf) (hg : SpecNamesStay h g) (hgt : g.templs p = h'.templs p) (later : List Call)
    (hs : templateMeans env.isPrint own sc h (j.after later) t v = some s)
    (hr : ∀ x ∈ showsNodes sc t (.start v), x.2.ShownRight env.isPrint own h j x.1) :
    CodeElem.text env g (.templ p) = .ok s := by
  rw [CodeElem.qualify] at hq
  obtain ⟨t', h1, i1, h2, h3⟩ := QM.bind_eq_ok hq
  simp only [QM.read, deref, ht, Prod.mk.injEq, Outcome.ok.injEq] at h2
  obtain ⟨rfl, rfl, rfl⟩ := h2
  obtain ⟨d, h1, i1, h2, h3⟩ := QM.bind_eq_ok h3
  simp only [QM.lift, Prod.mk.injEq] at h2
  obtain ⟨h2, rfl, rfl⟩ := h2
  simp only [QM.modify, Prod.mk.injEq] at h3
  obtain ⟨-, rfl, rfl⟩ := h3
  have hd : qualifyTemplateData h v i = (.ok d, (qualifyTemplateData h v i).2) := by rw [← h2]
  have := C61_template_partial hi hv hn hd hp hg later hs hr
  rw [CodeElem.text]
  simp only [deref, hgt, upd_same]
  simp [henv, this]

/-- C61: the passes that qualify files leave the names of specs as they are. -/
theorem QStep.specNamesStay {h i h' i'} (a : QStep h i h' i') : SpecNamesStay h h' := by
  refine ⟨fun p c hc => ?_, fun p c hc => ?_, fun p c hc => ?_, a.stays.files⟩
  · cases a with
    | @value q ts _ _ _ ht _ _ =>
      by_cases hqp : p = q
      · subst hqp
        rw [ht] at hc
        obtain rfl := Option.some.inj hc
        exact ⟨_, upd_same _ _ _, rfl, rfl⟩
      · exact ⟨c, by dsimp only; rw [upd_ne _ _ hqp]; exact hc, rfl, rfl⟩
    | _ => exact ⟨c, hc, rfl, rfl⟩
  · cases a with
    | @type q ts u _ ht _ =>
      by_cases hqp : p = q
      · subst hqp
        rw [ht] at hc
        obtain rfl := Option.some.inj hc
        exact ⟨_, upd_same _ _ _, rfl, rfl⟩
      · exact ⟨c, by dsimp only; rw [upd_ne _ _ hqp]; exact hc, rfl, rfl⟩
    | _ => exact ⟨c, hc, rfl, rfl⟩
  · cases a with
    | @func q ts u _ ht _ =>
      by_cases hqp : p = q
      · subst hqp
        rw [ht] at hc
        obtain rfl := Option.some.inj hc
        exact ⟨_, upd_same _ _ _, rfl, rfl, rfl⟩
      · exact ⟨c, by dsimp only; rw [upd_ne _ _ hqp]; exact hc, rfl, rfl, rfl⟩
    | _ => exact ⟨c, hc, rfl, rfl, rfl⟩

theorem SpecNamesStay.refl (h : Heap) : SpecNamesStay h h :=
  ⟨fun _ c hc => ⟨c, hc, rfl, rfl⟩, fun _ c hc => ⟨c, hc, rfl, rfl⟩, fun _ c hc => ⟨c, hc, rfl, rfl, rfl⟩,
    fun _ c hc => ⟨c, hc, rfl⟩⟩

theorem SpecNamesStay.trans {h g k : Heap} (a : SpecNamesStay h g) (b : SpecNamesStay g k) : SpecNamesStay h k := by
  refine ⟨fun p c hc => ?_, fun p c hc => ?_, fun p c hc => ?_, fun p c hc => ?_⟩
  · obtain ⟨c1, h1, h2, h3⟩ := a.values p c hc
    obtain ⟨c2, h4, h5, h6⟩ := b.values p c1 h1
    exact ⟨c2, h4, h5.trans h2, h6.trans h3⟩
  · obtain ⟨c1, h1, h2, h3⟩ := a.types p c hc
    obtain ⟨c2, h4, h5, h6⟩ := b.types p c1 h1
    exact ⟨c2, h4, h5.trans h2, h6.trans h3⟩
  · obtain ⟨c1, h1, h2, h3, h3'⟩ := a.funcs p c hc
    obtain ⟨c2, h4, h5, h6, h6'⟩ := b.funcs p c1 h1
    exact ⟨c2, h4, h5.trans h2, h6.trans h3, h6'.trans h3'⟩
  · obtain ⟨c1, h1, h2⟩ := a.files p c hc
    obtain ⟨c2, h4, h5⟩ := b.files p c1 h1
    exact ⟨c2, h4, h5.trans h2⟩

theorem QSteps.specNamesStay {h i h' i'} (a : QSteps h i h' i') : SpecNamesStay h h' := by
  induction a with
  | refl => exact .refl _
  | step _ s ih => exact ih.trans s.specNamesStay

/-! ### Templates piece by piece -/

/-- C61: the text of a template is that of its parts, in order; text is written as it is. -/
theorem C61_parts_in_order (tbl : Nat → Bool) (own : TVal → Shown) (sc : Scalars) (h : Heap) (t u : List TNode) (text : GoString)
    (data : TVal) :
    execute tbl own sc h [.text text] data = some text ∧
    execute tbl own sc h (t ++ u) data =
      (execute tbl own sc h t data).bind fun x => (execute tbl own sc h u data).map (x ++ ·) := by
  refine ⟨by simp [execute, runNodes, TNode.run], ?_⟩
  simp only [execute]
  induction t with
  | nil => simp [runNodes]
  | cons n t ih =>
    rw [List.cons_append, runNodes, runNodes, ih]
    generalize TNode.run _ _ n _ = x, runNodes _ _ t _ = y, runNodes _ _ u _ = z
    rcases x with _ | x <;> rcases y with _ | y <;> rcases z with _ | z <;> simp

theorem execute_single (tbl : Nat → Bool) (own : TVal → Shown) (sc : Scalars) (h : Heap) (n : TNode) (data : TVal) :
    execute tbl own sc h [n] data = n.run sc (fun a v => (v.shown tbl own h a).text) (.start data) := by
  rw [execute, runNodes, runNodes]
  generalize n.run _ _ _ = x
  cases x <;> simp

theorem joinAll_eq {α : Type} (f : α → Option GoString) (l : List α) : joinAll f l = (l.mapM f).map List.flatten := by
  induction l with
  | nil => rfl
  | cons w l ih =>
    rw [joinAll, ih, List.mapM_cons]
    cases f w <;> cases List.mapM f l <;> rfl

theorem numberedFrom_eq (sc : Scalars) : ∀ (vs : List TVal) (n : Nat),
    numberedFrom sc n vs = (vs.zipIdx n).map fun x => (.scalar (sc.number x.2), x.1)
  | [], _ => rfl
  | v :: vs, n => by rw [numberedFrom, numberedFrom_eq sc vs, List.zipIdx_cons, List.map_cons]

/-- C61: a loop over a slice or an array writes its body for each element, in order, and what follows `else` if there
is none. In the body the dot and the second new variable are the element, the first one is its number, counted from 0,
and `$` is still the data. The elements of a slice are addressable, those of an array in an interface are not. -/
theorem C61_loop (tbl : Nat → Bool) (own : TVal → Shown) (sc : Scalars) (h : Heap) (body other : List TNode) (vs : List TVal)
    (slice : Bool) {data : TVal} (hd : data = if slice then .slice vs else .array vs) :
    execute tbl own sc h [.range ⟨none, []⟩ body other] data =
      if vs = [] then execute tbl own sc h other data
      else (vs.zipIdx.mapM fun w => runNodes sc (fun a v => (v.shown tbl own h a).text) body
        ⟨(slice, w.1), [(false, .iface acceptsAll data), (false, .scalar (sc.number w.2)), (slice, w.1)]⟩).map List.flatten := by
  rw [execute_single, execute]
  subst hd
  cases vs <;> cases slice <;>
    simp [TNode.run, TScope.get, TScope.start, TVal.follow, TVal.items, TVal.indirect, joinAll_eq, numberedFrom_eq, acceptsAll,
      Function.comp_def]

/-- C61: a loop over a map whose keys are numbers or strings writes its body for each entry, in the order of the keys,
and what follows `else` if there is none. In the body the dot and the second new variable are the value, which is not
addressable, the first one is the key, and `$` is still the data. -/
theorem C61_loop_map (tbl : Nat → Bool) (own : TVal → Shown) (sc : Scalars) (h : Heap) (body other : List TNode)
    (es : List (Nat × TVal)) (htr : ∀ a b c, sc.le a b = true → sc.le b c = true → sc.le a c = true)
    (hto : ∀ a b, sc.le a b = true ∨ sc.le b a = true) {data : TVal} (hd : data = .map (es.map fun e => (.scalar e.1, e.2))) :
    ∃ sorted : List (Nat × TVal), sorted.Perm es ∧ sorted.Pairwise (fun x y => sc.le x.1 y.1 = true) ∧
      execute tbl own sc h [.range ⟨none, []⟩ body other] data =
        if es = [] then execute tbl own sc h other data
        else (sorted.mapM fun e => runNodes sc (fun a v => (v.shown tbl own h a).text) body
          ⟨(false, e.2), [(false, .iface acceptsAll data), (false, .scalar e.1), (false, e.2)]⟩).map List.flatten := by
  have hk : keyedEntries (es.map fun e => (.scalar e.1, e.2)) = some (es.map fun e => (e.1, (.scalar e.1, e.2))) := by
    clear hd
    induction es with
    | nil => rfl
    | cons e es ih => rw [List.map_cons, keyedEntries, ih]; rfl
  refine ⟨sortByKey sc es, sortByKey_perm sc es, sortByKey_pairwise htr hto es, ?_⟩
  rw [execute_single, execute]
  have hs := sortByKey_map sc (fun e : Nat × TVal => ((TVal.scalar e.1, e.2) : TVal × TVal)) es
  have he : sortByKey sc es = [] ↔ es = [] :=
    ⟨fun h => by simpa [h] using (sortByKey_perm sc es).symm.length_eq, fun h => by rw [h]; rfl⟩
  subst hd
  by_cases hes : es = []
  · simp [TNode.run, TScope.get, TScope.start, TVal.follow, TVal.items, TVal.indirect, hes, keyedEntries, sortByKey]
  · simp [TNode.run, TScope.get, TScope.start, TVal.follow, TVal.items, TVal.indirect, hk, hs, hes, he, joinAll_eq]
    rfl

/-- C61: `len` of a slice, an array, or a map is written like the number of its elements. -/
theorem C61_len (tbl : Nat → Bool) (own : TVal → Shown) (sc : Scalars) (h : Heap) (vs : List TVal) (es : List (TVal × TVal)) :
    execute tbl own sc h [.size ⟨none, []⟩] (.slice vs) = (own (.scalar (sc.number vs.length))).text ∧
    execute tbl own sc h [.size ⟨none, []⟩] (.array vs) = (own (.scalar (sc.number vs.length))).text ∧
    execute tbl own sc h [.size ⟨none, []⟩] (.ptr (.map es)) = (own (.scalar (sc.number es.length))).text := by
  simp [execute_single, TNode.run, TScope.get, TScope.start, TVal.follow, TVal.size, TVal.indirect, TVal.shown]

theorem truth_eq (sc : Scalars) (v : TVal) : v.truth sc = !v.EmptyValue sc := by
  fun_induction TVal.EmptyValue v sc
  case case6 t h1 h2 h3 h4 h5 =>
    cases t <;> simp_all [TVal.truth, TVal.inInterfaces]
  all_goals simp_all [TVal.truth, TVal.inInterfaces]

/-- C61: what conditions mean: `not` turns them around, `and` and `or` combine them, and `eq` compares numbers, strings
and the like, also those in interfaces and those that are given in the template. -/
theorem C61_test (tbl : Nat → Bool) (own : TVal → Shown) (sc : Scalars) (h : Heap) (c d : TCond) (a b : Nat) (body other : List TNode)
    (acc : Accepts) (data : TVal) :
    execute tbl own sc h [.test (.value ⟨none, []⟩) body other] data =
      execute tbl own sc h (if data.EmptyValue sc then other else body) data ∧
    execute tbl own sc h [.test (.not c) body other] data = execute tbl own sc h [.test c other body] data ∧
    ((d.eval sc (.start data)).isSome →
      execute tbl own sc h [.test (.and c d) body other] data =
        execute tbl own sc h [.test c [.test d body other] other] data ∧
      execute tbl own sc h [.test (.or c d) body other] data =
        execute tbl own sc h [.test c body [.test d body other]] data) ∧
    execute tbl own sc h [.test (.eq (.path ⟨none, []⟩) (.const b)) body other] (.iface acc (.scalar a)) =
      (sc.eq a b).bind fun x => execute tbl own sc h (if x then body else other) (.iface acc (.scalar a)) := by
  have hi : (TVal.iface acceptsAll data).EmptyValue sc = data.EmptyValue sc := rfl
  refine ⟨?_, ?_, fun hd => ?_, ?_⟩
  · rw [execute_single, TNode.run, TCond.eval]
    simp only [TScope.get, TScope.start, TVal.follow, Option.bind_some, Option.map_some, truth_eq, hi]
    cases data.EmptyValue sc <;> rfl
  · rw [execute_single, execute_single, TNode.run, TNode.run, TCond.eval]
    cases c.eval sc (.start data) with
    | none => rfl
    | some x => cases x <;> rfl
  · obtain ⟨y, hy⟩ := Option.isSome_iff_exists.1 hd
    simp only [execute_single, TNode.run, TCond.eval, hy, ← execute.eq_def]
    cases c.eval sc (.start data) with
    | none => exact ⟨rfl, rfl⟩
    | some x => cases x <;> cases y <;> simp [execute]
  · rw [execute_single, TNode.run, TCond.eval]
    simp only [TArg.get, TScope.get, TScope.start, TVal.follow, Option.bind_some, Option.map_some, TVal.equal, TVal.inInterfaces]
    cases sc.eq a b with
    | none => rfl
    | some x => cases x <;> rfl

/-- C61: a template that is executed in another one writes what it writes for its argument, with no variables but `$`,
which is the argument. -/
theorem C61_call (tbl : Nat → Bool) (own : TVal → Shown) (sc : Scalars) (h : Heap) (body : List TNode) (data : TVal)
    (fs : List (Bool × TVal)) (k : Nat) (hf : fs[k]? = some (true, .iface acceptsAll data)) :
    execute tbl own sc h [.call ⟨none, []⟩ body] data = execute tbl own sc h body data ∧
    execute tbl own sc h [.call ⟨none, [.field k]⟩ body] (.struct fs) = execute tbl own sc h body data := by
  constructor
  · rw [execute_single, execute]
    simp [TNode.run, TScope.get, TScope.start, TVal.follow]
  · rw [execute_single, execute]
    simp [TNode.run, TScope.get, TScope.start, TVal.follow, TStep.next, TVal.indirect, hf]

/-- C61: a condition writes its body or what follows `else`, and the second only if the value is a number, string, nil
pointer or the like that counts as false, or a slice, an array, or a map without anything in it. The dot is the value
in the body of `with` only; the new variable is the value everywhere. -/
theorem C61_condition (tbl : Nat → Bool) (own : TVal → Shown) (sc : Scalars) (h : Heap) (body other : List TNode) (data : TVal) :
    (execute tbl own sc h [.when ⟨none, []⟩ body other] data = execute tbl own sc h [.define ⟨none, []⟩ body] data ∧
      execute tbl own sc h [.with ⟨none, []⟩ body other] data = execute tbl own sc h [.define ⟨none, []⟩ body] data ∧
      data.EmptyValue sc = false) ∨
    (execute tbl own sc h [.when ⟨none, []⟩ body other] data = execute tbl own sc h [.define ⟨none, []⟩ other] data ∧
      execute tbl own sc h [.with ⟨none, []⟩ body other] data = execute tbl own sc h [.define ⟨none, []⟩ other] data ∧
      data.EmptyValue sc = true) := by
  have key := truth_eq sc
  have hi : (TVal.iface acceptsAll data).EmptyValue sc = data.EmptyValue sc := rfl
  simp only [execute_single, TNode.run, TScope.get, TScope.start, TVal.follow, TScope.push, Option.bind_some, key, hi,
    List.cons_append, List.nil_append]
  cases data.EmptyValue sc <;> simp

/-- C61: in the body of `with`, the dot is the value; in the body of `if`, and after `else`, it is not. -/
theorem C61_dot (tbl : Nat → Bool) (own : TVal → Shown) (sc : Scalars) (h : Heap) (fs : List (Bool × TVal)) (s : Symbol)
    (hf : fs[0]? = some (true, .symbol s)) (he : fs[1]? = some (true, .slice [])) :
    execute tbl own sc h [.with ⟨none, [.field 0]⟩ [.show ⟨none, []⟩] []] (.struct fs) = some s.string ∧
    execute tbl own sc h [.when ⟨none, [.field 0]⟩ [.show ⟨none, [.field 0]⟩] []] (.struct fs) = some s.string ∧
    execute tbl own sc h [.with ⟨none, [.field 0]⟩ [.show ⟨some 0, [.field 0]⟩] []] (.struct fs) = some s.string ∧
    execute tbl own sc h [.when ⟨none, [.field 0]⟩ [.show ⟨some 1, []⟩] []] (.struct fs) = some s.string ∧
    execute tbl own sc h [.define ⟨none, [.field 0]⟩ [.show ⟨some 1, []⟩]] (.struct fs) = some s.string ∧
    execute tbl own sc h [.with ⟨none, [.field 1]⟩ [] [.show ⟨none, [.field 0]⟩]] (.struct fs) = some s.string ∧
    execute tbl own sc h [.when ⟨none, [.field 1]⟩ [] [.show ⟨none, [.field 0]⟩]] (.struct fs) = some s.string := by
  simp [execute_single, TNode.run, runNodes, TVal.follow, TStep.next, TVal.indirect, TVal.shown, TScope.get, TScope.start, TScope.push,
    TVal.truth, TVal.inInterfaces, hf, he, Shown.text]

/-- C61: a spec that is an element of a slice, or that something points to, is shown by its `String` method; one that
is the value for a key of a map, or an element of an array in an interface, is shown as `fmt` shows structs. -/
theorem C61_spec_text (tbl : Nat → Bool) (own : TVal → Shown) (sc : Scalars) (h : Heap) (r : SpecRef) (id : Nat)
    (before after : List TVal) :
    execute tbl own sc h [.show ⟨none, [.elem before.length]⟩] (.slice (before ++ .spec r :: after)) = (r.shown tbl h).text ∧
    execute tbl own sc h [.show ⟨none, []⟩] (.ptr (.spec r)) = (r.shown tbl h).text ∧
    execute tbl own sc h [.show ⟨none, [.key id]⟩] (.map [(.scalar id, .spec r)]) = (own (.spec r)).text ∧
    execute tbl own sc h [.show ⟨none, [.key id]⟩] (.map [(.scalar id, .ptr (.spec r))]) = (r.shown tbl h).text ∧
    execute tbl own sc h [.show ⟨none, [.elem before.length]⟩] (.array (before ++ .spec r :: after)) = (own (.spec r)).text ∧
    execute tbl own sc h [.show ⟨none, [.elem before.length]⟩] (.array (before ++ .ptr (.spec r) :: after)) =
      (r.shown tbl h).text := by
  simp [execute_single, TNode.run, TVal.follow, TStep.next, TVal.inInterfaces, TVal.indirect, TVal.shown, entryFor, TVal.isKey,
    TScope.get, TScope.start]

/-! ### Values of go/types and reflect -/

/-- C61: if what reflect writes for a type is what gopoet writes for the converted type, then values of reflect in
interfaces that accept a `TypeName` are always shown right. -/
theorem C61_reflect_partial (tbl : Nat → Bool) (own : TVal → Shown) {h : Heap} {j : Imports} (hj : Inv j) {acc : Accepts} {t : RT}
    {t' : TypeName} {a : Bool} (ht : typeNameForReflectType t = .ok t') (ha : acc.typeName = true) (hv : t'.valid = true)
    (hown : own (.reflectType t) = .ofString (t'.string tbl)) (hm : ∀ p ∈ packagesOf t'.symbols, HasName j p) :
    (TVal.iface acc (.reflectType t)).ShownRight tbl own h j a := by
  refine ⟨rfl, fun _ => ?_⟩
  by_cases hc : changes j.qualifierOf t'.symbols = true
  · left
    rw [TVal.requalify, ht, requalifyConverted, if_pos (by rw [ha]; simpa [changes] using hc)]
    simp
  · right
    have hc' := changes_type.1 (by simpa using hc)
    obtain ⟨s, hs⟩ := textWith_ok tbl j.qualifierOf (r := .type t') hv
    refine ⟨.type t', s, by rw [TVal.ref, ht]; rfl, ?_, ?_⟩
    · rw [text_eq (r := .type t') hj hm]; exact hs
    · rw [Reference.textWith, hc'] at hs
      rw [shown_iface]
      show own (.reflectType t) = _
      rw [hown, hs]; rfl

/-- C61: a named type of go/types is shown right if and only if its package needs another name in the file than it has,
or the name is its import path. -/
theorem C61_goType_iff (tbl : Nat → Bool) (own : TVal → Shown) (hown : GoTypeTexts own) {h : Heap} {j : Imports} (hj : Inv j)
    {acc : Accepts} {p : TypesPackage} {n : GoString} {a : Bool} (ha : acc.typeName = true) (hne : p.name ≠ [])
    (hm : HasName j ⟨p.path, p.name⟩) :
    (TVal.iface acc (.goType (.named ⟨some p, n⟩))).ShownRight tbl own h j a ↔
      j.qualifierOf p.path ≠ p.name ∨ p.path = p.name := by
  have hb : (⟨p.path, p.name⟩ : Package) ≠ ⟨[], []⟩ := by simp [hne]
  have ht : typeNameForGoType (.named ⟨some p, n⟩) = .ok (.named ⟨⟨p.path, p.name⟩, n⟩) := rfl
  have hk : ∀ q ∈ (Reference.type (.named ⟨⟨p.path, p.name⟩, n⟩)).mentions, HasName j q := by
    intro q hq
    have : q = ⟨p.path, p.name⟩ := by simpa [Reference.mentions, packagesOf, TypeName.symbols, hb] using hq
    rw [this]; exact hm
  have hrq : (TVal.iface acc (.goType (.named ⟨some p, n⟩))).requalify h j.qualifierOf ≠
      .iface acc (.goType (.named ⟨some p, n⟩)) ↔ j.qualifierOf p.path ≠ p.name := by
    rw [TVal.requalify, ht, requalifyConverted, ha]
    simp only [TypeName.symbols, List.any_cons, List.any_nil, Bool.or_false, Bool.true_and, decide_eq_true_eq,
      Symbol.requalify, if_neg hb]
    split
    · rename_i hc
      simp only [ne_eq, TVal.iface.injEq, reduceCtorEq, and_false, not_false_eq_true, true_iff]
      intro he
      exact hc (by rw [he])
    · rename_i hc
      simp only [ne_eq, not_true_eq_false, false_iff, not_not] at hc ⊢
      have := congrArg (fun s => s.package.name) hc
      simpa using this
  have hsh : (TVal.iface acc (.goType (.named ⟨some p, n⟩))).shown tbl own h a = .str (p.path ++ b! "." ++ n) := by
    rw [shown_iface]
    show own _ = _
    rw [hown]
  rw [TVal.ShownRight, hrq, hsh]
  have href : (TVal.iface acc (.goType (.named ⟨some p, n⟩))).ref h a = some (.type (.named ⟨⟨p.path, p.name⟩, n⟩)) := by
    rw [TVal.ref, ht]; rfl
  simp only [href, Option.some.injEq, TVal.methodSpec, TVal.foreign, true_and, forall_const]
  by_cases hq : j.qualifierOf p.path = p.name
  · simp only [hq, ne_eq, not_true_eq_false, false_or]
    have htx : (Reference.type (.named ⟨⟨p.path, p.name⟩, n⟩)).text tbl j = .ok (p.name ++ b! "." ++ n) := by
      rw [text_eq hj hk, Reference.textWith]
      simp [TypeName.mapSymbols, Symbol.requalify, hq, TypeName.string, Symbol.string, hne]
    constructor
    · rintro ⟨r, s, rfl, h1, h2⟩
      rw [htx] at h1
      simp only [Outcome.ok.injEq] at h1
      simp only [Shown.str.injEq] at h2
      rw [← h1] at h2
      simpa using h2
    · intro he
      exact ⟨_, _, rfl, htx, by rw [he]⟩
  · simp [hq]

/-- What go/types writes for named types; for everything else the examples need no text except for one number. -/
def exOwnTexts : TVal → Shown
  | .goType (.named ⟨some p, n⟩) => .str (p.path ++ b! "." ++ n)
  | .scalar 7 => .int 7
  | _ => .other

theorem exOwn_goTypes : GoTypeTexts exOwnTexts := fun _ _ => rfl

/-- Identifiers of numbers; number 0 counts as false. -/
def exScalars : Scalars where
  truth id := id != 0
  number n := n
  le a b := a ≤ b
  eq a b := some (a == b)

/-- C61 fails: a type of go/types whose package keeps its name in the file is left as it is (templates.go:27-31), and
its own `String` method writes the import path. -/
theorem not_C61_full : ¬ C61_full := by
  intro hall
  have hq : qualifyTemplateData {} (.goType (.named ⟨some ⟨b! "x/q", b! "q"⟩, b! "T"⟩)) (newImportsFor (b! "x/p")) =
    (.ok (.goType (.named ⟨some ⟨b! "x/q", b! "q"⟩, b! "T"⟩)), (newImportsFor (b! "x/p")).add (b! "x/q") (b! "q") false) := rfl
  obtain ⟨w', s, h1, h2, h3⟩ := hall (fun _ => true) exOwnTexts {} _ _ _ _ _ [] false
    (.type (.named ⟨⟨b! "x/q", b! "q"⟩, b! "T"⟩)) exOwn_goTypes ⟨b! "x/p", [], rfl⟩ rfl rfl hq trivial rfl rfl []
  simp only [TVal.follow, Option.some.injEq, Prod.mk.injEq, true_and] at h1
  subst h1
  have h4 : s = b! "x/q.T" := by
    have : Shown.str (b! "x/q.T") = .str s := h3
    simpa using this.symm
  have h5 : (Reference.type (.named ⟨⟨b! "x/q", b! "q"⟩, b! "T"⟩)).text (fun _ => true)
    (((newImportsFor (b! "x/p")).add (b! "x/q") (b! "q") false).after []) = .ok (b! "q.T") := by rfl
  rw [h5, h4] at h2
  simp at h2

/-- A method that is given as a `*FuncSpec` is shown as its bare name. -/
example : ((qualifyTemplateData exMethods (.ptr (.spec (.func 3))) (newImportsFor (b! "x/p"))).1.bind fun d =>
    .ok (execute (fun _ => true) exOwnTexts exScalars exMethods [.show ⟨none, []⟩] d)) = .ok (some (b! "N")) := by rfl

/-- `{{.F0}} {{range .F1}}[{{.}}]{{else}}none{{end}} {{with .F2}}{{.}}{{end}} {{$x := index .F3 0}}{{$x.F0}} {{.F4.k}}
{{if .F5}}{{.F5}}{{else}}-{{end}}{{if .F6}}{{.F6}}{{else}}-{{$.F0}}{{end}}` -/
def exTemplate : List TNode :=
  [.show ⟨none, [.field 0]⟩, .text (b! " "),
    .range ⟨none, [.field 1]⟩ [.text (b! "["), .show ⟨none, []⟩, .text (b! "]")] [.text (b! "none")], .text (b! " "),
    .with ⟨none, [.field 2]⟩ [.show ⟨none, []⟩] [], .text (b! " "),
    .define ⟨none, [.field 3, .elem 0]⟩ [.show ⟨some 1, [.field 0]⟩, .text (b! " "), .show ⟨none, [.field 4, .key 5]⟩,
      .text (b! " "), .when ⟨none, [.field 5]⟩ [.show ⟨none, [.field 5]⟩] [.text (b! "-")],
      .when ⟨none, [.field 6]⟩ [.show ⟨none, [.field 6]⟩] [.text (b! "-"), .show ⟨some 0, [.field 0]⟩]]]

/-- A symbol of y/a, a slice with a `TypeName` of x/a and a type of go/types of x/a in interfaces, the spec of the type
`T` that is declared in x/a, a slice of structs with a package, a map with a symbol, a number, and an empty slice. -/
def exTemplateData : TVal := .ptr (.struct [(true, .symbol ⟨⟨b! "y/a", b! "a"⟩, b! "U"⟩),
  (true, .slice [.iface acceptsAll (.typeName (.ptr (.named ⟨⟨b! "x/a", b! "a"⟩, b! "V"⟩))),
    .iface acceptsAll (.goType (.named ⟨some ⟨b! "x/a", b! "a"⟩, b! "W"⟩))]),
  (true, .iface acceptsAll (.ptr (.spec (.type 1)))), (true, .slice [.struct [(true, .package ⟨b! "x/a", b! "a"⟩)]]),
  (true, .map [(.scalar 5, .symbol ⟨⟨b! "x/p", b! "p"⟩, b! "X"⟩)]), (true, .scalar 7), (true, .slice [])])

/-- y/a comes first and keeps its name, x/a becomes a1, and x/p is the package of the file. -/
example : ((qualifyTemplateData exDeclared exTemplateData (newImportsFor (b! "x/p"))).1.bind fun d =>
    .ok (execute (fun _ => true) exOwnTexts exScalars exDeclared exTemplate d)) = .ok (some (b! "a.U [*a1.V][a1.W] a1.T a1 X 7-a.U")) := by rfl

example : templateMeans (fun _ => true) exOwnTexts exScalars exDeclared
    (qualifyTemplateData exDeclared exTemplateData (newImportsFor (b! "x/p"))).2 exTemplate exTemplateData =
      some (b! "a.U [*a1.V][a1.W] a1.T a1 X 7-a.U") := by rfl

/-- Without qualification the text would be another one. -/
example : execute (fun _ => true) exOwnTexts exScalars exDeclared exTemplate exTemplateData =
    some (b! "a.U [*a.V][x/a.W] a.T a p.X 7-a.U") := by rfl

/-- The data after qualification. -/
def exTemplateQualified : TVal := .ptr (.struct [(true, .symbol ⟨⟨b! "y/a", b! "a"⟩, b! "U"⟩),
  (true, .slice [.iface acceptsAll (.typeName (.ptr (.named ⟨⟨b! "x/a", b! "a1"⟩, b! "V"⟩))),
    .iface acceptsAll (.typeName (.named ⟨⟨b! "x/a", b! "a1"⟩, b! "W"⟩))]),
  (true, .iface acceptsAll (.ptr (.specCopy (.type 1) (b! "a1")))), (true, .slice [.struct [(true, .package ⟨b! "x/a", b! "a1"⟩)]]),
  (true, .map [(.scalar 5, .symbol ⟨⟨b! "x/p", []⟩, b! "X"⟩)]), (true, .scalar 7), (true, .slice [])])

/-- The theorem applies to this template and these data. -/
example : execute (fun _ => true) exOwnTexts exScalars exDeclared exTemplate exTemplateQualified =
    some (b! "a.U [*a1.V][a1.W] a1.T a1 X 7-a.U") := by
  have hq : qualifyTemplateData exDeclared exTemplateData (newImportsFor (b! "x/p")) =
    (.ok exTemplateQualified, (qualifyTemplateData exDeclared exTemplateData (newImportsFor (b! "x/p"))).2) := by rfl
  refine C61_template_partial (h := exDeclared) (v := exTemplateData) (t := exTemplate) ⟨b! "x/p", [], rfl⟩ (by rfl) (by rfl) hq
    ?_ (.refl _) [] (by rfl) ?_
  · refine ⟨⟨trivial, ⟨trivial, trivial, trivial⟩, ⟨trivial, fun _ => rfl⟩, ⟨⟨trivial, trivial⟩, trivial⟩, ⟨⟨trivial, trivial, trivial⟩, fun _ => rfl⟩,
      trivial, trivial, trivial⟩, fun _ => rfl⟩
  · intro x hx
    have hsh : showsNodes exScalars exTemplate (.start exTemplateData) =
      [(true, .symbol ⟨⟨b! "y/a", b! "a"⟩, b! "U"⟩),
        (true, .iface acceptsAll (.typeName (.ptr (.named ⟨⟨b! "x/a", b! "a"⟩, b! "V"⟩)))),
        (true, .iface acceptsAll (.goType (.named ⟨some ⟨b! "x/a", b! "a"⟩, b! "W"⟩))),
        (true, .iface acceptsAll (.ptr (.spec (.type 1)))), (true, .package ⟨b! "x/a", b! "a"⟩),
        (false, .symbol ⟨⟨b! "x/p", b! "p"⟩, b! "X"⟩), (true, .scalar 7), (true, .symbol ⟨⟨b! "y/a", b! "a"⟩, b! "U"⟩)] := by rfl
    rw [hsh] at hx
    simp only [List.mem_cons, List.not_mem_nil, or_false] at hx
    rcases hx with rfl | rfl | rfl | rfl | rfl | rfl | rfl | rfl
    case inr.inr.inl =>
      refine ⟨rfl, fun _ => .inl fun he => ?_⟩
      have : (TVal.iface acceptsAll (.typeName (.named ⟨⟨b! "x/a", b! "a1"⟩, b! "W"⟩))) =
        .iface acceptsAll (.goType (.named ⟨some ⟨b! "x/a", b! "a"⟩, b! "W"⟩)) := he
      simp at this
    all_goals exact ⟨rfl, fun h => absurd h (by decide)⟩

/-- `{{len .}}:{{range $k, $x := .}}{{if and (not (eq $k 4)) (or . $)}} {{$k}}={{template "t" $x}}{{end}}{{end}}` with
`{{define "t"}}<{{.}}{{$}}>{{end}}` -/
def exMapTemplate : List TNode :=
  [.size ⟨none, []⟩, .text (b! ":"),
    .range ⟨none, []⟩
      [.test (.and (.not (.eq (.path ⟨some 1, []⟩) (.const 4))) (.or (.value ⟨none, []⟩) (.value ⟨some 0, []⟩)))
        [.text (b! " "), .show ⟨some 1, []⟩, .text (b! "="),
          .call ⟨some 2, []⟩ [.text (b! "<"), .show ⟨none, []⟩, .show ⟨some 0, []⟩, .text (b! ">")]] []] []]

/-- Three symbols by number. -/
def exMapData : TVal := .map [(.scalar 9, .symbol ⟨⟨b! "y/a", b! "a"⟩, b! "U"⟩),
  (.scalar 4, .symbol ⟨⟨b! "x/a", b! "a"⟩, b! "V"⟩), (.scalar 3, .symbol ⟨⟨b! "x/a", b! "a"⟩, b! "W"⟩)]

/-- What numbers are written as. -/
def exNumbers : TVal → Shown
  | .scalar n => .int n
  | _ => .other

/-- The numbers 3 and 9 are written in this order, 4 is left out. The packages of the symbols have been imported in the
order that the map gives them. -/
example : ((qualifyTemplateData {} exMapData (newImportsFor (b! "x/p"))).1.bind fun d =>
    .ok (execute (fun _ => true) exNumbers exScalars {} exMapTemplate d)) = .ok (some (b! "3: 3=<a1.Wa1.W> 9=<a.Ua.U>")) := by
  decide +kernel

example : templateMeans (fun _ => true) exNumbers exScalars {}
    (qualifyTemplateData {} exMapData (newImportsFor (b! "x/p"))).2 exMapTemplate exMapData =
      some (b! "3: 3=<a1.Wa1.W> 9=<a.Ua.U>") := by decide +kernel

end Gopoet
