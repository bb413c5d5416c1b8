import Verif.Proof.ProgramSays
/-! Functions come from calls of `NewFunc` and `NewMethod`. -/

namespace Gopoet

theorem newTypeSpec_funcs {h h' : Heap} {n : GoString} {t : TypeRef} {p : Ptr} (hn : newTypeSpec h n t = .ok (p, h')) :
    h'.funcs = h.funcs := by
  unfold newTypeSpec at hn
  split at hn
  · cases hn
  · obtain ⟨ts, _, hn⟩ := bind_eq_ok hn
    obtain ⟨u, _, hn⟩ := bind_eq_ok hn
    cases hn
    rfl
  · split at hn
    · cases hn
    · rename_i fs
      obtain ⟨⟨fields, next, h5, -⟩, -⟩ := allocFields_spec fs { h with next := h.next + 1 } h.next
      cases hn
      have h8 := congrArg Heap.funcs h5
      exact h8
    · rename_i ms es
      obtain ⟨⟨embeds, next, h5, h6, -⟩, -⟩ := allocEmbeds_spec es { h with next := h.next + 1 } h.next
      obtain ⟨⟨methods, next', h7, -, -⟩, -⟩ := allocMethods_spec ms (allocEmbeds { h with next := h.next + 1 } h.next es).2 h.next
      cases hn
      have h8 := congrArg Heap.funcs h7
      have h9 := congrArg Heap.funcs h5
      exact h8.trans h9
    · cases hn
      rfl

theorem newBlock_funcs {h h' : Heap} {c : Option CodeCall} {p : Ptr} (hf : h.Fresh) (hn : newBlock h c = .ok (p, h')) :
    h'.funcs = h.funcs := by
  unfold newBlock at hn
  cases c with
  | none => cases hn; rfl
  | some c =>
    obtain ⟨⟨cb, h1⟩, h2, hn⟩ := bind_eq_ok hn
    cases hn
    exact (CodeCall.exec_grown (Grown.allocBlocks hf []).fresh h2).2.2.1

theorem setParent_funcs {h h' : Heap} {f : Ptr} {e : FileElem} (hs : e.setParent f h = .ok h') {p : Ptr} (hp : h.funcs p = none) :
    h'.funcs p = none := by
  cases e with
  | values q =>
    obtain ⟨d, _, hs⟩ := bind_eq_ok hs
    obtain ⟨m, h1, hs⟩ := bind_eq_ok hs
    cases hs
    exact hp
  | types q =>
    obtain ⟨d, _, hs⟩ := bind_eq_ok hs
    obtain ⟨m, h1, hs⟩ := bind_eq_ok hs
    cases hs
    exact hp
  | func q =>
    obtain ⟨m, h1, hs⟩ := bind_eq_ok hs
    cases hs
    exact (setParents_grown_ok (fun _ _ => True) (fun _ => trivial) (fun _ _ _ _ _ => trivial) (fun _ => trivial) _ h1).2 p hp

theorem addElement_funcs {h h' : Heap} {f : Ptr} {e : FileElem} (hs : addElement h f e = .ok h') {p : Ptr} (hp : h.funcs p = none) :
    h'.funcs p = none := by
  obtain ⟨g, h1, hs⟩ := bind_eq_ok hs
  obtain ⟨file, h2, hs⟩ := bind_eq_ok hs
  cases hs
  exact setParent_funcs h1 hp

theorem modAt_none {α : Type} {m m' : Ptr → Option α} {q : Ptr} {f : α → α} (hm : modAt m q f = .ok m') {p : Ptr} (hp : m p = none) :
    m' p = none := by
  unfold modAt at hm
  split at hm
  · rename_i a ha
    cases hm
    rw [upd_ne _ _ (by rintro rfl; rw [hp] at ha; cases ha), hp]
  · cases hm

/-- Only `NewFunc` makes functions. -/
theorem exec_funcs {c : BuildCall} {h h' : Heap} (hf : h.Fresh) (hc : c.exec h = .ok h') {p : Ptr} {f : FuncSpec}
    (hp : h.funcs p = none) (hp' : h'.funcs p = some f) : p = h.next ∧ c = .newFunc f.receiver f.name := by
  have no : h'.funcs p = none → p = h.next ∧ c = .newFunc f.receiver f.name := fun h => by rw [h] at hp'; cases hp'
  have same : h'.funcs = h.funcs → p = h.next ∧ c = .newFunc f.receiver f.name := fun h => no (by rw [h]; exact hp)
  cases c with
  | newFunc r n =>
    cases hc
    by_cases he : p = h.next
    · subst he
      rw [show (newFunc h r n).2.funcs h.next = some { name := n, receiver := r } from upd_same _ _ _] at hp'
      cases hp'
      exact ⟨rfl, rfl⟩
    · exact no (by rw [← hp]; exact upd_ne _ _ he)
  | newTypeSpec n t => obtain ⟨q, hc⟩ := built_ok hc; exact same (newTypeSpec_funcs hc)
  | newTypeAlias n t =>
    obtain ⟨q, hc⟩ := built_ok hc
    obtain ⟨h0, ts, h1, h2, rfl⟩ := C39_alias.1 hc
    have h3 := newTypeSpec_funcs h1
    exact same h3
  | newStructTypeSpec n fs =>
    obtain ⟨q, hc⟩ := built_ok hc
    obtain ⟨⟨ft, g⟩, h1, hc⟩ := bind_eq_ok hc
    obtain ⟨⟨F, h2, -⟩, -⟩ := collectFields_ok h1
    cases hc
    subst h2
    exact same rfl
  | newInterfaceTypeSpec n es =>
    obtain ⟨q, hc⟩ := built_ok hc
    obtain ⟨⟨ss, ms, g⟩, h1, hc⟩ := bind_eq_ok hc
    obtain ⟨⟨E, M, h2, -⟩, -⟩ := collectElems_ok h1
    cases hc
    subst h2
    exact same rfl
  | newBlock c => obtain ⟨q, hc⟩ := built_ok hc; exact same (newBlock_funcs hf hc)
  | newFile n pp pn =>
    obtain ⟨q, hc⟩ := built_ok hc
    obtain ⟨_, _, hc⟩ := bind_eq_ok hc
    cases hc
    exact same rfl
  | setComment ob c =>
    cases ob <;> (obtain ⟨m, h1, hc⟩ := bind_eq_ok hc; cases hc)
    all_goals first | exact same rfl | exact no (modAt_none h1 hp)
  | initWith q format args =>
    obtain ⟨⟨b, g⟩, h1, hc⟩ := bind_eq_ok hc
    obtain ⟨m, h2, hc⟩ := bind_eq_ok hc
    cases hc
    have h3 := newBlock_funcs hf h1
    exact same h3
  | funcSig q c =>
    obtain ⟨m, h1, hc⟩ := bind_eq_ok hc
    cases hc
    exact no (modAt_none h1 hp)
  | funcCode q c =>
    obtain ⟨f0, h1, hc⟩ := bind_eq_ok hc
    obtain ⟨⟨cb, g⟩, h2, hc⟩ := bind_eq_ok hc
    cases hc
    have h3 := (CodeCall.exec_grown hf h2).2.2.1
    refine no ?_
    simp only
    rw [upd_ne _ _ (by rintro rfl; rw [deref_eq_ok h1] at hp; cases hp), h3, hp]
  | blockCode q c =>
    obtain ⟨f0, h1, hc⟩ := bind_eq_ok hc
    obtain ⟨⟨cb, g⟩, h2, hc⟩ := bind_eq_ok hc
    cases hc
    have h3 := (CodeCall.exec_grown hf h2).2.2.1
    exact same h3
  | addElement q e => exact no (addElement_funcs hc hp)
  | addValue q k s => exact no (addElement_funcs (h := { h with valueDecls := upd h.valueDecls h.next { kind := k, specs := [s] }, next := h.next + 1 }) hc hp)
  | addType q s => exact no (addElement_funcs (h := { h with typeDecls := upd h.typeDecls h.next { types := [s] }, next := h.next + 1 }) hc hp)
  | newValue | newValueDecl | newTypeDecl | newField | newInterfaceEmbed | newInterfaceMethod => cases hc; exact same rfl
  | setType | setInitializer | setTag | methodSig | fileField | declAddValue | declAddType =>
    obtain ⟨m, h1, hc⟩ := bind_eq_ok hc
    cases hc
    exact same rfl

/-- A function in the heap was made by a call. -/
theorem func_made : ∀ (n : Nat) {cs : List BuildCall} {h : Heap}, cs.length = n → build cs {} = .ok h → ∀ {p : Ptr} {f : FuncSpec},
    h.funcs p = some f → ∃ g post, Made cs (.newFunc f.receiver f.name) g post ∧ g.next = p := by
  intro n
  induction n with
  | zero =>
    intro cs h hn hb p f hp
    cases cs with
    | nil => cases hb; cases hp
    | cons => cases hn
  | succ n ih =>
    intro cs h hn hb p f hp
    obtain ⟨init, c, rfl⟩ : ∃ init c, cs = init ++ [c] := by
      rcases List.eq_nil_or_concat cs with rfl | ⟨init, c, rfl⟩
      · cases hn
      · exact ⟨init, c, by simp⟩
    obtain ⟨g, hg⟩ := made_prefix hb (pre := init) (post := [c]) rfl
    have hc : c.exec g = .ok h := by
      rw [build_append, hg] at hb
      replace hb : (c.exec g).bind (build []) = .ok h := hb
      obtain ⟨h1, h2, hb⟩ := bind_eq_ok hb
      cases hb
      exact h2
    have hf := (build_built Heap.fresh_empty hg).fresh
    cases hgp : g.funcs p with
    | none =>
      obtain ⟨rfl, rfl⟩ := exec_funcs hf hc hgp hp
      exact ⟨g, [], ⟨init, rfl, hg⟩, rfl⟩
    | some f0 =>
      obtain ⟨par, l, h1, -⟩ := (BuildCall.step hf hc).funcs p f0 hgp
      rw [hp] at h1
      cases h1
      obtain ⟨g', post, h2, h3⟩ := ih (by simpa using hn) hg hgp
      exact ⟨g', post ++ [c], h2.append [c], h3⟩

end Gopoet
