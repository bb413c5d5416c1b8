import Verif.Proof.ProgramFuncs
/-! The code that a program gives to functions and code blocks. -/

namespace Gopoet

/-! ### Which calls make code blocks -/

theorem newTypeSpec_blocks {h h' : Heap} {n : GoString} {t : TypeRef} {p : Ptr} (hn : newTypeSpec h n t = .ok (p, h')) :
    h'.blocks = h.blocks := by
  unfold newTypeSpec at hn
  split at hn
  · cases hn
  · obtain ⟨ts, _, hn⟩ := bind_eq_ok hn
    obtain ⟨u, _, hn⟩ := bind_eq_ok hn
    cases hn
    rfl
  · split at hn
    · cases hn
    · rename_i fs
      obtain ⟨⟨fields, next, h5, -⟩, -⟩ := allocFields_spec fs { h with next := h.next + 1 } h.next
      cases hn
      have h8 := congrArg Heap.blocks h5
      exact h8
    · rename_i ms es
      obtain ⟨⟨embeds, next, h5, h6, -⟩, -⟩ := allocEmbeds_spec es { h with next := h.next + 1 } h.next
      obtain ⟨⟨methods, next', h7, -, -⟩, -⟩ := allocMethods_spec ms (allocEmbeds { h with next := h.next + 1 } h.next es).2 h.next
      cases hn
      have h8 := congrArg Heap.blocks h7
      have h9 := congrArg Heap.blocks h5
      exact h8.trans h9
    · cases hn
      rfl

theorem addElement_blocks {h h' : Heap} {f : Ptr} {e : FileElem} (hs : addElement h f e = .ok h') : h'.blocks = h.blocks := by
  obtain ⟨g, h1, hs⟩ := bind_eq_ok hs
  obtain ⟨file, h2, hs⟩ := bind_eq_ok hs
  cases hs
  show g.blocks = h.blocks
  cases e with
  | values q =>
    obtain ⟨d, _, h1⟩ := bind_eq_ok h1
    obtain ⟨m, _, h1⟩ := bind_eq_ok h1
    cases h1
    rfl
  | types q =>
    obtain ⟨d, _, h1⟩ := bind_eq_ok h1
    obtain ⟨m, _, h1⟩ := bind_eq_ok h1
    cases h1
    rfl
  | func q =>
    obtain ⟨m, _, h1⟩ := bind_eq_ok h1
    cases h1
    rfl

/-- The calls that change the tables of code blocks and functions. -/
def BuildCall.writes : BuildCall → Bool
  | .newFunc _ _ | .newBlock _ | .initWith _ _ _ | .blockCode _ _ | .funcCode _ _ => true
  | _ => false

theorem exec_blocks {c : BuildCall} {h h' : Heap} (hc : c.exec h = .ok h') (hw : c.writes = false) : h'.blocks = h.blocks := by
  cases c with
  | newTypeSpec n t => obtain ⟨q, hc⟩ := built_ok hc; exact newTypeSpec_blocks hc
  | newTypeAlias n t =>
    obtain ⟨q, hc⟩ := built_ok hc
    obtain ⟨h0, ts, h1, h2, rfl⟩ := C39_alias.1 hc
    have h3 := newTypeSpec_blocks h1
    exact h3
  | newStructTypeSpec n fs =>
    obtain ⟨q, hc⟩ := built_ok hc
    obtain ⟨⟨ft, g⟩, h1, hc⟩ := bind_eq_ok hc
    obtain ⟨⟨F, h2, -⟩, -⟩ := collectFields_ok h1
    cases hc
    subst h2
    rfl
  | newInterfaceTypeSpec n es =>
    obtain ⟨q, hc⟩ := built_ok hc
    obtain ⟨⟨ss, ms, g⟩, h1, hc⟩ := bind_eq_ok hc
    obtain ⟨⟨E, M, h2, -⟩, -⟩ := collectElems_ok h1
    cases hc
    subst h2
    rfl
  | newFile n pp pn =>
    obtain ⟨q, hc⟩ := built_ok hc
    obtain ⟨_, _, hc⟩ := bind_eq_ok hc
    cases hc
    rfl
  | setComment ob c => cases ob <;> (obtain ⟨m, h1, hc⟩ := bind_eq_ok hc; cases hc; rfl)
  | addElement q e => exact addElement_blocks hc
  | addValue q k s => exact addElement_blocks (h := { h with valueDecls := upd h.valueDecls h.next { kind := k, specs := [s] }, next := h.next + 1 }) hc
  | addType q s => exact addElement_blocks (h := { h with typeDecls := upd h.typeDecls h.next { types := [s] }, next := h.next + 1 }) hc
  | newValue | newValueDecl | newTypeDecl | newField | newInterfaceEmbed | newInterfaceMethod => cases hc; rfl
  | setType | setInitializer | setTag | methodSig | fileField | declAddValue | declAddType | funcSig =>
    obtain ⟨m, h1, hc⟩ := bind_eq_ok hc
    cases hc
    rfl
  | newFunc | newBlock | initWith | blockCode | funcCode => cases hw

/-! ### The code -/

/-- The code in the heap was written by these calls. -/
structure Gave (σ : CodeGiven) (h : Heap) : Prop where
  blocks : ∀ b l, h.blocks b = some l → ∃ ks, CodeOf h.args h.templs ks l ∧ ks.map Prod.fst = σ.blocks b
  funcs : ∀ p f, h.funcs p = some f → ∃ ks, CodeOf h.args h.templs ks f.code ∧ ks.map Prod.fst = σ.funcs p

theorem CodeOf.flat {σ : CodeGiven} {h : Heap} (hG : Gave σ h) {A T} (hA : Extends Unchanged h.args A)
    (hT : Extends Unchanged h.templs T) {c : CodeCall} {l : CodeBlock} (hc : CodeOf A T [(c, h)] l) :
    ∃ ks, CodeOf A T ks l ∧ ks.map Prod.fst = c.adds σ.blocks := by
  cases hc with
  | line h1 h2 h3 =>
    refine ⟨_, .line (h := h) h1 h2 h3, ?_⟩
    cases c <;> first | rfl | cases h1
  | templ h2 h3 => exact ⟨_, .templ (h := h) h2 h3, rfl⟩
  | code h1 h2 =>
    cases h2
    obtain ⟨ks, k1, k2⟩ := hG.blocks _ _ h1
    exact ⟨ks, by rw [List.append_nil]; exact k1.mono hA hT, k2⟩

theorem Gave.empty : Gave ⟨fun _ => [], fun _ => []⟩ {} := ⟨fun _ _ h => (nomatch h), fun _ _ h => (nomatch h)⟩

theorem gave_newBlock {σ : CodeGiven} {h h' : Heap} (hG : Gave σ h) (hf : h.Fresh) {c : Option CodeCall} {p : Ptr}
    (hn : newBlock h c = .ok (p, h')) : Gave (σ.new h.next c.toList) h' := by
  have g := Grown.allocBlocks hf []
  have hG0 : Gave (σ.new h.next []) { h with blocks := upd h.blocks h.next [], next := h.next + 1 } := by
    refine ⟨fun b l hb => ?_, hG.funcs⟩
    dsimp only at hb
    by_cases he : b = h.next
    · subst he
      rw [show upd h.blocks h.next [] h.next = some [] from upd_same ..] at hb
      cases hb
      exact ⟨[], .nil, by simp [CodeGiven.new]⟩
    · rw [show upd h.blocks h.next [] b = h.blocks b from upd_ne _ _ he] at hb
      obtain ⟨ks, k1, k2⟩ := hG.blocks b l hb
      exact ⟨ks, k1, by rw [k2]; simp [CodeGiven.new, he]⟩
  cases c with
  | none => cases hn; exact hG0
  | some c =>
    obtain ⟨⟨cb, h1⟩, h2, hn⟩ := bind_eq_ok hn
    cases hn
    obtain ⟨g1, g2, g3, -⟩ := CodeCall.exec_grown g.fresh h2
    obtain ⟨l, rfl, k1⟩ := CodeCall.exec_code h2
    refine ⟨fun b l' hb => ?_, fun p f hp => ?_⟩
    · dsimp only at hb
      by_cases he : b = h.next
      · subst he
        rw [show upd h1.blocks h.next _ h.next = _ from upd_same ..] at hb
        cases hb
        obtain ⟨ks, k2, k3⟩ := k1.flat hG0 g1.args g1.templs
        refine ⟨ks, k2, ?_⟩
        rw [k3]
        simp [CodeGiven.new]
      · rw [show upd h1.blocks h.next _ b = h1.blocks b from upd_ne _ _ he, g2] at hb
        obtain ⟨ks, k2, k3⟩ := hG0.blocks b l' hb
        refine ⟨ks, k2.mono g1.args g1.templs, ?_⟩
        rw [k3]
        simp [CodeGiven.new, he]
    · dsimp only at hp
      rw [show h1.funcs p = _ from congrFun g3 p] at hp
      obtain ⟨ks, k2, k3⟩ := hG0.funcs p f hp
      exact ⟨ks, k2.mono g1.args g1.templs, k3⟩

theorem gave_call {σ : CodeGiven} {h h' : Heap} (hG : Gave σ h) (hf : h.Fresh) {c : BuildCall} (hc : c.exec h = .ok h') :
    Gave (σ.call (c, h)) h' := by
  have s := BuildCall.step hf hc
  by_cases hw : c.writes = true
  · cases c <;> simp only [BuildCall.writes, Bool.false_eq_true] at hw
    case newFunc r n =>
      cases hc
      refine ⟨hG.blocks, fun p f hp => ?_⟩
      by_cases he : p = h.next
      · subst he
        rw [show (newFunc h r n).2.funcs h.next = some { name := n, receiver := r } from upd_same _ _ _] at hp
        cases hp
        exact ⟨[], .nil, by simp [CodeGiven.call]⟩
      · rw [show (newFunc h r n).2.funcs p = h.funcs p from upd_ne _ _ he] at hp
        obtain ⟨ks, k1, k2⟩ := hG.funcs p f hp
        exact ⟨ks, k1, by rw [k2]; simp [CodeGiven.call, he]⟩
    case newBlock c =>
      obtain ⟨p, hc⟩ := built_ok hc
      exact gave_newBlock hG hf hc
    case initWith q format args =>
      obtain ⟨⟨b, g⟩, h1, hc⟩ := bind_eq_ok hc
      obtain ⟨m, _, hc⟩ := bind_eq_ok hc
      cases hc
      have := gave_newBlock hG hf h1
      exact ⟨this.blocks, this.funcs⟩
    case blockCode q c =>
      obtain ⟨f, h1, hc⟩ := bind_eq_ok hc
      obtain ⟨⟨cb, g⟩, h2, hc⟩ := bind_eq_ok hc
      cases hc
      obtain ⟨g1, g2, g3, -⟩ := CodeCall.exec_grown hf h2
      obtain ⟨l, rfl, k1⟩ := CodeCall.exec_code h2
      refine ⟨fun b l' hb => ?_, fun p f hp => ?_⟩
      · dsimp only at hb
        by_cases he : b = q
        · subst he
          rw [show upd g.blocks b _ b = _ from upd_same ..] at hb
          cases hb
          obtain ⟨ks, k2, k3⟩ := k1.flat hG g1.args g1.templs
          obtain ⟨ks0, k4, k5⟩ := hG.blocks _ _ (deref_eq_ok h1)
          refine ⟨ks0 ++ ks, (k4.mono g1.args g1.templs).append k2, ?_⟩
          rw [List.map_append, k5, k3]
          simp [CodeGiven.call]
        · rw [show upd g.blocks q _ b = g.blocks b from upd_ne _ _ he, g2] at hb
          obtain ⟨ks, k2, k3⟩ := hG.blocks b l' hb
          refine ⟨ks, k2.mono g1.args g1.templs, ?_⟩
          rw [k3]
          simp [CodeGiven.call, he]
      · dsimp only at hp
        rw [show g.funcs p = _ from congrFun g3 p] at hp
        obtain ⟨ks, k2, k3⟩ := hG.funcs p f hp
        exact ⟨ks, k2.mono g1.args g1.templs, k3⟩
    case funcCode q c =>
      obtain ⟨f, h1, hc⟩ := bind_eq_ok hc
      obtain ⟨⟨cb, g⟩, h2, hc⟩ := bind_eq_ok hc
      cases hc
      obtain ⟨g1, g2, g3, -⟩ := CodeCall.exec_grown hf h2
      obtain ⟨l, hl, k1⟩ := CodeCall.exec_code h2
      subst hl
      refine ⟨fun b l' hb => ?_, fun p f' hp => ?_⟩
      · dsimp only at hb
        rw [show g.blocks b = _ from congrFun g2 b] at hb
        obtain ⟨ks, k2, k3⟩ := hG.blocks b l' hb
        exact ⟨ks, k2.mono g1.args g1.templs, k3⟩
      · dsimp only at hp
        by_cases he : p = q
        · subst he
          rw [show upd g.funcs p _ p = _ from upd_same ..] at hp
          cases hp
          obtain ⟨ks, k2, k3⟩ := k1.flat hG g1.args g1.templs
          obtain ⟨ks0, k4, k5⟩ := hG.funcs _ _ (deref_eq_ok h1)
          refine ⟨ks0 ++ ks, (k4.mono g1.args g1.templs).append k2, ?_⟩
          rw [List.map_append, k5, k3]
          simp [CodeGiven.call]
        · rw [show upd g.funcs q _ p = g.funcs p from upd_ne _ _ he, g3] at hp
          obtain ⟨ks, k2, k3⟩ := hG.funcs p f' hp
          refine ⟨ks, k2.mono g1.args g1.templs, ?_⟩
          rw [k3]
          simp [CodeGiven.call, he]
  · have hw : c.writes = false := by simpa using hw
    have hσ : σ.call (c, h) = σ := by cases c <;> first | rfl | cases hw
    have hcode : ∀ p, code? p (c, h) = none := by cases c <;> intro p <;> first | rfl | cases hw
    rw [hσ]
    refine ⟨fun b l hb => ?_, fun p f hp => ?_⟩
    · rw [exec_blocks hc hw] at hb
      obtain ⟨ks, k1, k2⟩ := hG.blocks b l hb
      exact ⟨ks, k1.mono s.args s.templs, k2⟩
    · cases hq : h.funcs p with
      | none =>
        obtain ⟨-, rfl⟩ := exec_funcs hf hc hq hp
        cases hw
      | some f0 =>
        obtain ⟨par, l, h1, h2, -⟩ := s.funcs p f0 hq
        rw [hp, h2 (hcode p)] at h1
        obtain rfl := Option.some.inj h1
        obtain ⟨ks, k1, k2⟩ := hG.funcs p f0 hq
        exact ⟨ks, by simpa using k1.mono s.args s.templs, k2⟩

theorem gave_build : ∀ {cs : List BuildCall} {σ : CodeGiven} {h h' : Heap}, Gave σ h → h.Fresh → build cs h = .ok h' →
    Gave ((steps cs h).foldl CodeGiven.call σ) h'
  | [], _, _, _, hG, _, hb => by cases hb; exact hG
  | c :: cs, σ, h, h', hG, hf, hb => by
    obtain ⟨g, h1, hb⟩ := bind_eq_ok hb
    rw [steps_cons h1]
    exact gave_build (gave_call hG hf h1) (BuildCall.step hf h1).fresh hb

/-- The code that a program has written is that of `codeGiven`. -/
theorem code_given {cs : List BuildCall} {h : Heap} (hb : build cs {} = .ok h) : Gave (codeGiven cs) h :=
  gave_build .empty Heap.fresh_empty hb

end Gopoet
