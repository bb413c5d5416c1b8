import Verif.Proof.BuilderBuilt
/-! The effect of calls on code blocks. -/

namespace Gopoet

/-- What a call does to code blocks. -/
def BlockStep (c : BuildCall) (h h' : Heap) : Prop :=
  ∀ p b, h.blocks p = some b → ∃ l, h'.blocks p = some (b ++ l) ∧
    CodeOf h'.args h'.templs (blockCode? p (c, h)).toList l

theorem blockStep_of_kept {c : BuildCall} {h h' : Heap} (hk : Extends Unchanged h.blocks h'.blocks)
    (hn : ∀ p, blockCode? p (c, h) = none) : BlockStep c h h' := by
  intro p b hp
  obtain ⟨b', hb, rfl⟩ := hk p b hp
  refine ⟨[], by rw [hb, List.append_nil], ?_⟩
  rw [hn]
  exact .nil

theorem blockStep_of_same {c : BuildCall} {h h' : Heap} (hk : h'.blocks = h.blocks)
    (hn : ∀ p, blockCode? p (c, h) = none) : BlockStep c h h' :=
  blockStep_of_kept (by rw [hk]; exact .refl Unchanged.refl _) hn

theorem BuildCall.blockStep {c : BuildCall} {h h' : Heap} (hf : h.Fresh) (hc : c.exec h = .ok h') :
    BlockStep c h h' := by
  cases c with
  | blockCode p c =>
    obtain ⟨f, h1, hc⟩ := bind_eq_ok hc
    obtain ⟨⟨cb, g⟩, h2, hc⟩ := bind_eq_ok hc
    cases hc
    have hp := deref_eq_ok h1
    obtain ⟨g1, g2, g3, _⟩ := CodeCall.exec_grown hf h2
    obtain ⟨l, rfl, g4⟩ := CodeCall.exec_code h2
    intro q b hq
    by_cases hqp : q = p
    · subst hqp
      rw [hp] at hq
      cases hq
      refine ⟨l, upd_same .., ?_⟩
      simp only [blockCode?, if_true, Option.toList_some]
      exact g4
    · refine ⟨[], ?_, ?_⟩
      · dsimp only
        rw [upd_ne _ _ hqp, g2, hq, List.append_nil]
      · simp only [blockCode?, if_neg (Ne.symm hqp), Option.toList_none]
        exact .nil
  | newValue k names | newValueDecl k specs | newTypeDecl types | newField name t | newInterfaceEmbed s
  | newInterfaceMethod name | newFunc r name =>
    cases hc
    exact blockStep_of_same rfl fun _ => rfl
  | newTypeSpec name t =>
    obtain ⟨p, hc⟩ := built_ok hc
    exact blockStep_of_kept (newTypeSpec_grown hf hc).1.blocks fun _ => rfl
  | newTypeAlias name t =>
    obtain ⟨p, hc⟩ := built_ok hc
    exact blockStep_of_kept (newTypeAlias_grown hf hc).1.blocks fun _ => rfl
  | newStructTypeSpec name fields =>
    obtain ⟨p, hc⟩ := built_ok hc
    exact blockStep_of_kept (newStructTypeSpec_grown hf hc).1.blocks fun _ => rfl
  | newInterfaceTypeSpec name elems =>
    obtain ⟨p, hc⟩ := built_ok hc
    exact blockStep_of_kept (newInterfaceTypeSpec_grown hf hc).1.blocks fun _ => rfl
  | newBlock call =>
    obtain ⟨p, hc⟩ := built_ok hc
    exact blockStep_of_kept (newBlock_grown hf hc).1.blocks fun _ => rfl
  | newFile n pp pn =>
    obtain ⟨p, hc⟩ := built_ok hc
    exact blockStep_of_kept (allocFile_grown hf hc).1.blocks fun _ => rfl
  | setComment o s =>
    cases o <;> (obtain ⟨m, _, hc⟩ := bind_eq_ok hc; cases hc; exact blockStep_of_same rfl fun _ => rfl)
  | setType p t | setInitializer p b | setTag p tag | methodSig p c | funcSig p c | fileField p k s
  | declAddValue d s | declAddType d t =>
    obtain ⟨m, _, hc⟩ := bind_eq_ok hc
    cases hc
    exact blockStep_of_same rfl fun _ => rfl
  | initWith p format args =>
    obtain ⟨⟨b, g⟩, h1, hc⟩ := bind_eq_ok hc
    obtain ⟨m, _, hc⟩ := bind_eq_ok hc
    cases hc
    exact blockStep_of_kept (newBlock_grown hf h1).1.blocks fun _ => rfl
  | funcCode p c =>
    obtain ⟨f, h1, hc⟩ := bind_eq_ok hc
    obtain ⟨⟨cb, g⟩, h2, hc⟩ := bind_eq_ok hc
    cases hc
    exact blockStep_of_same (CodeCall.exec_grown hf h2).2.1 fun _ => rfl
  | addElement f e =>
    obtain ⟨g, file, g1, _, _, _, _, rfl⟩ := addElement_parts hf hc
    exact blockStep_of_kept g1.blocks fun _ => rfl
  | addValue f k s =>
    have g0 := Grown.allocValueDecls hf { kind := k, specs := [s] }
    obtain ⟨g, file, g1, _, _, _, _, rfl⟩ := addElement_parts g0.fresh hc
    exact blockStep_of_kept (g0.trans g1).blocks fun _ => rfl
  | addType f t =>
    have g0 := Grown.allocTypeDecls hf { types := [t] }
    obtain ⟨g, file, g1, _, _, _, _, rfl⟩ := addElement_parts g0.fresh hc
    exact blockStep_of_kept (g0.trans g1).blocks fun _ => rfl

/-- What calls add to a block. -/
theorem build_blocks {p : Ptr} : ∀ {cs : List BuildCall} {h h' : Heap}, h.Fresh → build cs h = .ok h' →
    ∀ {b : CodeBlock}, h.blocks p = some b → ∃ l, h'.blocks p = some (b ++ l) ∧
      CodeOf h'.args h'.templs ((steps cs h).filterMap (blockCode? p)) l
  | [], h, h', _, hb, b, hp => by
    cases hb
    exact ⟨[], by rw [List.append_nil, hp], .nil⟩
  | c :: cs, h, h', hf, hb, b, hp => by
    obtain ⟨g, h1, hb⟩ := bind_eq_ok hb
    have s := BuildCall.step hf h1
    obtain ⟨l, h2, h3⟩ := BuildCall.blockStep hf h1 p b hp
    obtain ⟨l', h4, h5⟩ := build_blocks s.fresh hb h2
    have bb := build_built s.fresh hb
    refine ⟨l ++ l', by rw [h4, List.append_assoc], ?_⟩
    rw [steps_cons h1, filterMap_toList (blockCode? p)]
    exact (h3.mono bb.args bb.templs).append h5

end Gopoet
