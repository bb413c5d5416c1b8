import Verif.Model.TemplateText
import Verif.Spec.Template
/-!
# Templates with data without specs

What is written for data without specs does not depend on the specs.
-/

namespace Gopoet

theorem noSpecs_indirect : ∀ {v : TVal} {a : Bool}, v.noSpecs = true → (v.indirect a).2.noSpecs = true
  | .ptr v, a, h => by
    rw [TVal.noSpecs] at h
    rw [TVal.indirect]
    exact noSpecs_indirect h
  | .iface _ v, a, h => by
    rw [TVal.noSpecs] at h
    rw [TVal.indirect]
    exact noSpecs_indirect h
  | .spec _, a, h | .package _, a, h | .symbol _, a, h | .mref _, a, h | .signature _, a, h | .specCopy _ _, a, h
  | .embed _, a, h | .method _, a, h | .map _, a, h | .slice _, a, h | .struct _, a, h | .array _, a, h | .scalar _, a, h
  | .imports, a, h | .typeName _, a, h | .reflectType _, a, h | .goType _, a, h | .goObject _, a, h
  | .goPackage _, a, h => by
    rw [TVal.indirect]
    · exact h
    all_goals simp

theorem noSpecs_inInterfaces : ∀ {v : TVal} {a : Bool}, v.noSpecs = true → (v.inInterfaces a).2.noSpecs = true
  | .iface _ v, a, h => by
    rw [TVal.noSpecs] at h
    rw [TVal.inInterfaces]
    exact noSpecs_inInterfaces h
  | .ptr _, a, h
  | .spec _, a, h | .package _, a, h | .symbol _, a, h | .mref _, a, h | .signature _, a, h | .specCopy _ _, a, h
  | .embed _, a, h | .method _, a, h | .map _, a, h | .slice _, a, h | .struct _, a, h | .array _, a, h | .scalar _, a, h
  | .imports, a, h | .typeName _, a, h | .reflectType _, a, h | .goType _, a, h | .goObject _, a, h
  | .goPackage _, a, h => by
    rw [TVal.inInterfaces]
    · exact h
    all_goals simp

theorem noSpecs_field : ∀ {fs : List (Bool × TVal)}, noSpecsFields fs = true → ∀ x ∈ fs, x.2.noSpecs = true
  | (_, v) :: fs, h, x, hx => by
    rw [noSpecsFields, Bool.and_eq_true] at h
    rcases List.mem_cons.1 hx with rfl | hx
    · exact h.1
    · exact noSpecs_field h.2 x hx

theorem noSpecs_elem : ∀ {vs : List TVal}, noSpecsElems vs = true → ∀ x ∈ vs, x.noSpecs = true
  | v :: vs, h, x, hx => by
    rw [noSpecsElems, Bool.and_eq_true] at h
    rcases List.mem_cons.1 hx with rfl | hx
    · exact h.1
    · exact noSpecs_elem h.2 x hx

theorem noSpecs_entry : ∀ {es : List (TVal × TVal)}, noSpecsEntries es = true → ∀ x ∈ es, x.1.noSpecs = true ∧ x.2.noSpecs = true
  | (k, v) :: es, h, x, hx => by
    rw [noSpecsEntries, Bool.and_eq_true, Bool.and_eq_true] at h
    rcases List.mem_cons.1 hx with rfl | hx
    · exact h.1
    · exact noSpecs_entry h.2 x hx

theorem entryFor_mem {id : Nat} : ∀ {es : List (TVal × TVal)} {v}, entryFor id es = some v → ∃ k, (k, v) ∈ es
  | (k, v) :: es, w, h => by
    rw [entryFor] at h
    split at h
    · cases h; exact ⟨k, .head _⟩
    · obtain ⟨k', h'⟩ := entryFor_mem h
      exact ⟨k', .tail _ h'⟩

theorem noSpecs_next {s : TStep} {a : Bool} {v : TVal} {x : Bool × TVal} (hv : v.noSpecs = true) (hs : s.next a v = some x) :
    x.2.noSpecs = true := by
  cases s with
  | field k =>
    simp only [TStep.next] at hs
    have h1 := noSpecs_indirect (a := a) hv
    rcases hi : v.indirect a with ⟨b, u⟩
    rw [hi] at hs h1
    cases u <;> simp only [reduceCtorEq] at hs
    rename_i fs
    rw [TVal.noSpecs] at h1
    cases hf : fs[k]? with
    | none => simp [hf] at hs
    | some y =>
      obtain ⟨e, y⟩ := y
      cases e <;> simp [hf] at hs
      rw [← hs]
      exact noSpecs_field h1 (true, y) (List.mem_of_getElem? hf)
  | elem k =>
    simp only [TStep.next] at hs
    have h1 := noSpecs_inInterfaces (a := a) hv
    rcases hi : v.inInterfaces a with ⟨b, u⟩
    rw [hi] at hs h1
    cases u <;> simp only [reduceCtorEq, Option.map_eq_some_iff] at hs
    all_goals
      obtain ⟨w, h2, rfl⟩ := hs
      rw [TVal.noSpecs] at h1
      exact noSpecs_elem h1 _ (List.mem_of_getElem? h2)
  | key id =>
    simp only [TStep.next] at hs
    have h1 := noSpecs_indirect (a := a) hv
    rcases hi : v.indirect a with ⟨b, u⟩
    rw [hi] at hs h1
    cases u <;> simp only [reduceCtorEq, Option.map_eq_some_iff] at hs
    obtain ⟨w, h2, rfl⟩ := hs
    rw [TVal.noSpecs] at h1
    obtain ⟨k, h3⟩ := entryFor_mem h2
    exact (noSpecs_entry h1 _ h3).2

theorem noSpecs_follow : ∀ {path : List TStep} {a : Bool} {v : TVal} {x : Bool × TVal}, v.noSpecs = true →
    v.follow a path = some x → x.2.noSpecs = true
  | [], a, v, x, hv, h => by
    rw [TVal.follow] at h
    cases h
    exact hv
  | s :: path, a, v, x, hv, h => by
    rw [TVal.follow, Option.bind_eq_some_iff] at h
    obtain ⟨y, h1, h2⟩ := h
    exact noSpecs_follow (noSpecs_next hv h1) h2

/-- There are no specs in the values that paths can begin at. -/
structure TScope.NoSpecs (σ : TScope) : Prop where
  dot : σ.dot.2.noSpecs = true
  vars : ∀ x ∈ σ.vars, x.2.noSpecs = true

theorem TScope.NoSpecs.get {σ : TScope} (k : σ.NoSpecs) {p : TPath} {x : Bool × TVal} (h : σ.get p = some x) : x.2.noSpecs = true := by
  rw [TScope.get, Option.bind_eq_some_iff] at h
  obtain ⟨y, h1, h2⟩ := h
  refine noSpecs_follow ?_ h2
  cases hp : p.var with
  | none => rw [hp] at h1; cases h1; exact k.dot
  | some n => rw [hp] at h1; exact k.vars _ (List.mem_of_getElem? h1)

theorem TScope.NoSpecs.push {σ : TScope} (k : σ.NoSpecs) {x : Bool × TVal} (h : x.2.noSpecs = true) : (σ.push x).NoSpecs :=
  ⟨k.dot, fun y hy => (List.mem_append.1 hy).elim (k.vars y) fun hy => by rw [List.mem_singleton.1 hy]; exact h⟩

theorem noSpecs_numbered {sc : Scalars} : ∀ {vs : List TVal} {n : Nat}, noSpecsElems vs = true →
    ∀ e ∈ numberedFrom sc n vs, e.1.noSpecs = true ∧ e.2.noSpecs = true
  | v :: vs, n, h, e, he => by
    rw [noSpecsElems, Bool.and_eq_true] at h
    rw [numberedFrom] at he
    rcases List.mem_cons.1 he with rfl | he
    · exact ⟨by rw [TVal.noSpecs] <;> simp, h.1⟩
    · exact noSpecs_numbered h.2 e he

theorem mem_insertByKey {α} {sc : Scalars} {x y : Nat × α} : ∀ {l : List (Nat × α)}, y ∈ insertByKey sc x l → y = x ∨ y ∈ l
  | [], h => .inl (List.mem_singleton.1 h)
  | z :: l, h => by
    rw [insertByKey] at h
    split at h
    · exact List.mem_cons.1 h
    · rcases List.mem_cons.1 h with h | h
      · exact .inr (h ▸ .head _)
      · exact (mem_insertByKey h).imp id (.tail _)

theorem mem_sortByKey {α} {sc : Scalars} {y : Nat × α} : ∀ {l : List (Nat × α)}, y ∈ sortByKey sc l → y ∈ l
  | [], h => h
  | _ :: _, h => (mem_insertByKey h).elim (fun h => h ▸ .head _) fun h => .tail _ (mem_sortByKey h)

theorem mem_keyedEntries : ∀ {es : List (TVal × TVal)} {l}, keyedEntries es = some l → ∀ y ∈ l, y.2 ∈ es
  | [], l, h, y, hy => by cases h; cases hy
  | e :: es, l, h, y, hy => by
    rw [keyedEntries, Option.bind_eq_some_iff] at h
    obtain ⟨a, -, h⟩ := h
    obtain ⟨l', h1, rfl⟩ := Option.map_eq_some_iff.1 h
    rcases List.mem_cons.1 hy with rfl | hy
    · exact .head _
    · exact .tail _ (mem_keyedEntries h1 y hy)

theorem noSpecs_items {sc : Scalars} {a : Bool} {v : TVal} {y : Bool × List (TVal × TVal)} (hv : v.noSpecs = true)
    (hs : v.items sc a = some y) : ∀ e ∈ y.2, e.1.noSpecs = true ∧ e.2.noSpecs = true := by
  simp only [TVal.items] at hs
  have h1 := noSpecs_indirect (a := a) hv
  rcases hi : v.indirect a with ⟨b, u⟩
  rw [hi] at hs h1
  cases u <;> simp only [reduceCtorEq, Option.some.injEq, Option.map_eq_some_iff] at hs
  case slice | array =>
    subst hs
    rw [TVal.noSpecs] at h1
    exact noSpecs_numbered h1
  case map =>
    obtain ⟨l, h2, rfl⟩ := hs
    rw [TVal.noSpecs] at h1
    intro e he
    obtain ⟨x, hx, rfl⟩ := List.mem_map.1 he
    exact noSpecs_entry h1 _ (mem_keyedEntries h2 _ (mem_sortByKey hx))

theorem option_bind_congr {α β} {o : Option α} {f g : α → Option β} (h : ∀ x, o = some x → f x = g x) : o.bind f = o.bind g := by
  cases o with
  | none => rfl
  | some x => exact h x rfl

theorem joinAll_same {α} {f g : α → Option GoString} : ∀ {l : List α}, (∀ x ∈ l, f x = g x) → joinAll f l = joinAll g l
  | [], _ => rfl
  | x :: l, h => by
    rw [joinAll, joinAll, h x (.head _), joinAll_same fun y hy => h y (.tail _ hy)]

mutual
/-- What is written, if the texts of values without specs are the same. -/
theorem run_congr {sc : Scalars} {f g : Bool → TVal → Option GoString} (hfg : ∀ a v, v.noSpecs = true → f a v = g a v) :
    ∀ (t : TNode) {σ : TScope}, σ.NoSpecs → t.run sc f σ = t.run sc g σ
  | .text s, σ, k => by rw [TNode.run, TNode.run]
  | .show path, σ, k => by
    rw [TNode.run, TNode.run]
    exact option_bind_congr fun x hx => hfg _ _ (k.get hx)
  | .size path, σ, k => by
    rw [TNode.run, TNode.run]
    exact option_bind_congr fun x hx => option_bind_congr fun n _ => hfg _ _ (by rw [TVal.noSpecs] <;> simp)
  | .define path rest, σ, k => by
    rw [TNode.run, TNode.run]
    exact option_bind_congr fun x hx => runNodes_congr hfg rest (k.push (k.get hx))
  | .range path body other, σ, k => by
    rw [TNode.run, TNode.run]
    refine option_bind_congr fun x hx => option_bind_congr fun y hy => ?_
    rw [runNodes_congr hfg other k]
    split
    · rfl
    · refine joinAll_same fun e he => runNodes_congr hfg body ⟨(noSpecs_items (k.get hx) hy e he).2, fun z hz => ?_⟩
      rcases List.mem_append.1 hz with hz | hz
      · exact k.vars z hz
      · simp only [List.mem_cons, List.not_mem_nil, or_false] at hz
        rcases hz with rfl | rfl
        · exact (noSpecs_items (k.get hx) hy e he).1
        · exact (noSpecs_items (k.get hx) hy e he).2
  | .when path body other, σ, k => by
    rw [TNode.run, TNode.run]
    refine option_bind_congr fun x hx => ?_
    rw [runNodes_congr hfg body (k.push (k.get hx)), runNodes_congr hfg other (k.push (k.get hx))]
  | .with path body other, σ, k => by
    rw [TNode.run, TNode.run]
    refine option_bind_congr fun x hx => ?_
    rw [runNodes_congr hfg body (σ := ⟨x, σ.vars ++ [x]⟩) ⟨k.get hx, (k.push (k.get hx)).vars⟩, runNodes_congr hfg other (k.push (k.get hx))]
  | .test cond body other, σ, k => by
    rw [TNode.run, TNode.run, runNodes_congr hfg body k, runNodes_congr hfg other k]
  | .call path body, σ, k => by
    rw [TNode.run, TNode.run]
    exact option_bind_congr fun x hx => runNodes_congr hfg body ⟨k.get hx, fun y hy => by rw [List.mem_singleton.1 hy]; exact k.get hx⟩
theorem runNodes_congr {sc : Scalars} {f g : Bool → TVal → Option GoString} (hfg : ∀ a v, v.noSpecs = true → f a v = g a v) :
    ∀ (ts : List TNode) {σ : TScope}, σ.NoSpecs → runNodes sc f ts σ = runNodes sc g ts σ
  | [], σ, k => by rw [runNodes, runNodes]
  | t :: ts, σ, k => by rw [runNodes, runNodes, run_congr hfg t k, runNodes_congr hfg ts k]
end

theorem shown_noSpecs (tbl : Nat → Bool) (own : TVal → Shown) (h h' : Heap) (a : Bool) (v : TVal) (hv : v.noSpecs = true) :
    v.shown tbl own h' a = v.shown tbl own h a := by
  have h1 := noSpecs_indirect (a := a) hv
  rw [TVal.shown, TVal.shown]
  rcases hi : v.indirect a with ⟨b, u⟩
  rw [hi] at h1
  cases u <;> first | rfl | (cases b <;> rfl) | exact absurd h1 (by simp [TVal.noSpecs])

/-- Templates write the same text for data without specs, whatever the specs are. -/
theorem execute_noSpecs {tbl : Nat → Bool} {own : TVal → Shown} {sc : Scalars} {t : List TNode} {v : TVal} (h h' : Heap)
    (hv : v.noSpecs = true) : execute tbl own sc h' t v = execute tbl own sc h t v := by
  have hd : (TVal.iface acceptsAll v).noSpecs = true := by rw [TVal.noSpecs]; exact hv
  refine runNodes_congr (fun a w hw => by rw [shown_noSpecs tbl own h h' a w hw]) t ⟨hd, fun x hx => ?_⟩
  rw [List.mem_singleton.1 hx]
  exact hd

end Gopoet
