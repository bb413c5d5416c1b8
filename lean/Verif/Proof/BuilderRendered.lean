import Verif.Proof.BuilderBuilt
import Verif.Proof.SettledHeap
import Verif.Props.Decls
/-! What becomes of the functions of a file when it is written. -/

namespace Gopoet
open Imports

/-! ### References -/

theorem Denotes.step {h i h' i'} (s : QStep h i h' i') {a : Arg} {r : Reference} (hd : Denotes h a r) :
    Denotes h' a r := by
  have hs := s.stays
  have file : ∀ {f : Ptr} {file : GoFile}, h.files f = some file → ∃ file', h'.files f = some file' ∧
      (⟨file'.imports.pkgPath, file'.packageName⟩ : Package) = ⟨file.imports.pkgPath, file.packageName⟩ := by
    intro f file hf
    obtain ⟨file', h1, h2⟩ := hs.files f file hf
    exact ⟨file', h1, h2⟩
  cases hd with
  | package p => exact .package p
  | packagePtr p => exact .packagePtr p
  | symbol p => exact .symbol p
  | symbolPtr p => exact .symbolPtr p
  | mref p => exact .mref p
  | mrefPtr p => exact .mrefPtr p
  | typeName p => exact .typeName p
  | @value p c n f fl h1 h2 h3 h4 =>
    have hc := s.cores.1 p
    rw [h1] at hc
    cases hv : h'.values p with
    | none => simp [hv] at hc
    | some c' =>
      rw [hv] at hc
      simp only [Option.map_some, Option.some.injEq, ValueSpec.core, Prod.mk.injEq] at hc
      obtain ⟨file', h5, h6⟩ := file h4
      rw [← h6]
      exact .value hv (by rw [hc.1, h2]) (by rw [hc.2, h3]) h5
  | typeSpec h1 h2 h3 h4 =>
    obtain ⟨t', g1, g2, g3⟩ := hs.types _ _ h1
    obtain ⟨file', h5, h6⟩ := file h4
    rw [← h6, ← g2]
    exact .typeSpec g1 (by rwa [g2]) (by rw [g3, h3]) h5
  | func h1 h2 h3 h4 =>
    obtain ⟨t', g1, g2, g3, g4⟩ := hs.funcs _ _ h1
    obtain ⟨file', h5, h6⟩ := file h4
    rw [← h6, ← g2]
    exact .func g1 (by rw [g3, h2]) (by rw [g4, h3]) h5
  | method h1 h2 h3 h4 =>
    obtain ⟨t', g1, g2, g3, g4⟩ := hs.funcs _ _ h1
    obtain ⟨file', h5, h6⟩ := file h4
    rw [← h6, ← g2]
    exact .method g1 (by rw [g3, h2]) (by rw [g4, h3]) h5
  | ifaceMethod h1 h2 h3 h4 h5 h6 =>
    obtain ⟨m', g1, g2, g3⟩ := hs.methods _ _ h1
    obtain ⟨t', k1, k2, k3⟩ := hs.types _ _ h3
    obtain ⟨file', h7, h8⟩ := file h6
    rw [← h8, ← g2, ← k2]
    exact .ifaceMethod g1 (by rw [g3, h2]) k1 (by rwa [k2]) (by rw [k3, h5]) h7
  | reflectType h1 => exact .reflectType h1
  | goType h1 => exact .goType h1
  | goSymbol h1 => exact .goSymbol h1
  | goMethod h1 => exact .goMethod h1
  | goPackage p text => exact .goPackage p text

/-- What arguments stand for in `h` they stand for in `h'`. -/
def Follows (h h' : Heap) : Prop := ∀ a r, Denotes h a r → Denotes h' a r

theorem Follows.step {h0 h i h' i'} (hf : Follows h0 h) (s : QStep h i h' i') : Follows h0 h' :=
  fun a r hd => (hf a r hd).step s

theorem Follows.steps {h0 h i h' i'} (hf : Follows h0 h) (s : QSteps h i h' i') : Follows h0 h' := by
  induction s with
  | refl => exact hf
  | step _ s ih => exact ih.step s

theorem qualifyArg_written (tbl : Nat → Bool) {h0 h : Heap} {i : Imports} {a : Arg} (hi : Inv i)
    (hf : Follows h0 h) (ha : a.writable h0) :
    ∃ a' j sh, qualifyArg h a i = (.ok a', j) ∧ Evolves (fun _ => True) i j ∧
      (∀ g, a'.shown tbl g = sh) ∧ ∀ k, Ext j k → ArgWritten tbl h0 k a sh := by
  rcases ha with ⟨s, rfl⟩ | ⟨n, rfl⟩ | ⟨r, h1, h2, h3⟩
  · exact ⟨_, i, _, rfl, .refl _, fun _ => rfl, fun _ _ => .str s⟩
  · exact ⟨_, i, _, rfl, .refl _, fun _ => rfl, fun _ _ => .int n⟩
  · obtain ⟨a', j, g1, g2, g3, -⟩ := qualifyArg_denotes tbl hi (hf _ _ h1) h2
    have hst : Stored a j r := by
      cases r with
      | method m => intro hin; rcases h3 m rfl with rfl | rfl <;> simp [Arg.indirect] at hin
      | _ => trivial
    obtain ⟨s, g4, g5⟩ := g3 hst
    exact ⟨a', j, _, g1, g2, g4, fun k hk => .ref h1 h2 h3 (g5 k hk)⟩

theorem qualifyArgList_written (tbl : Nat → Bool) {h0 h : Heap} (hf : Follows h0 h) :
    ∀ {l : List Arg} {i : Imports}, Inv i → (∀ a ∈ l, a.writable h0) →
    ∃ l' j shs, qualifyArgList h l i = (.ok (), l', j) ∧ Evolves (fun _ => True) i j ∧
      (∀ g, l'.map (Arg.shown tbl g) = shs) ∧
      ∀ k, Ext j k → List.Forall₂ (ArgWritten tbl h0 k) l shs
  | [], i, _, _ => ⟨[], i, [], rfl, .refl _, fun _ => rfl, fun _ _ => .nil⟩
  | a :: l, i, hi, hl => by
    obtain ⟨a', j, sh, h1, h2, h3, h4⟩ := qualifyArg_written tbl hi hf (hl a (by simp))
    obtain ⟨l', k, shs, g1, g2, g3, g4⟩ := qualifyArgList_written tbl hf (l := l) (h2.inv hi)
      (fun b hb => hl b (by simp [hb]))
    refine ⟨a' :: l', k, sh :: shs, by simp only [qualifyArgList, h1, g1], h2.trans g2,
      fun g => by rw [List.map_cons, h3, g3], fun m hm => .cons (h4 m (g2.ext.trans hm)) (g4 m hm)⟩

/-! ### Lines -/

/-- The arguments of a line were qualified: they show as they must. -/
def LineDone (tbl : Nat → Bool) (h0 : Heap) (q : Ptr) (l : List Arg) (h : Heap) (i : Imports) : Prop :=
  ∃ l' shs, h.args q = some l' ∧ (∀ a ∈ l', ArgSettled h i a) ∧ (∀ g, l'.map (Arg.shown tbl g) = shs) ∧
    ∀ k, Ext i k → List.Forall₂ (ArgWritten tbl h0 k) l shs

theorem LineDone.later {tbl h0 q l h i h' i'} (a : Later h i h' i') (hd : LineDone tbl h0 q l h i) :
    LineDone tbl h0 q l h' i' := by
  obtain ⟨l', shs, h1, h2, h3, h4⟩ := hd
  obtain ⟨g1, g2⟩ := a.args h1 h2
  exact ⟨l', shs, g1, g2, h3, fun k hk => h4 k (a.ext.trans hk)⟩

/-- The arguments of a line are as they were, or qualified. -/
structure LineOk (tbl : Nat → Bool) (h0 : Heap) (q : Ptr) (l : List Arg) (h : Heap) (i : Imports) : Prop where
  inv : Inv i
  follows : Follows h0 h
  line : h.args q = some l ∨ LineDone tbl h0 q l h i

theorem LineDone.of_args {tbl h0 q l h i l' o j} (hl : ∀ a ∈ l, a.writable h0)
    (hk : LineOk tbl h0 q l h i) {l1 : List Arg} (h1 : h.args q = some l1)
    (h2 : qualifyArgList h l1 i = (o, l', j)) :
    LineDone tbl h0 q l { h with args := upd h.args q l' } j := by
  rcases hk.line with hq | hd
  · rw [hq] at h1
    obtain rfl := Option.some.inj h1
    obtain ⟨l2, k, shs, g1, g2, g3, g4⟩ := qualifyArgList_written tbl hk.follows hk.inv hl
    rw [h2] at g1
    simp only [Prod.mk.injEq] at g1
    obtain ⟨rfl, rfl, rfl⟩ := g1
    refine ⟨l', shs, upd_same .., fun a ha => (qualifyArgList_settled h2 a ha).later ?_ (Ext.refl _), g3, g4⟩
    exact (QStep.args hq h2).stays
  · exact hd.later (.step (.refl _ _) (.args h1 h2))

theorem LineOk.step {tbl h0 q l h i h' i'} (hl : ∀ a ∈ l, a.writable h0) (s : QStep h i h' i')
    (hk : LineOk tbl h0 q l h i) : LineOk tbl h0 q l h' i' := by
  refine ⟨s.evolves.inv hk.inv, hk.follows.step s, ?_⟩
  rcases hk.line with hq | hd
  · cases s with
    | @args p l1 l' o _ h1 h2 =>
      by_cases hpq : q = p
      · subst hpq
        exact .inr (.of_args hl hk h1 h2)
      · exact .inl ((upd_ne _ _ hpq).trans hq)
    | _ => exact .inl hq
  · exact .inr (hd.later (.step (.refl _ _) s))

theorem LineOk.steps {tbl h0 q l h i h' i'} (hl : ∀ a ∈ l, a.writable h0) (s : QSteps h i h' i')
    (hk : LineOk tbl h0 q l h i) : LineOk tbl h0 q l h' i' := by
  induction s with
  | refl => exact hk
  | step _ s ih => exact ih.step hl s

/-! ### Functions -/

/-- The signature of a function was qualified. -/
def FuncDone (p : Ptr) (f : FuncSpec) (h : Heap) (i : Imports) : Prop :=
  h.funcs p = some { f with signature := f.signature.mapSymbols i.symIn } ∧
    (∀ s ∈ f.signature.symbols, Covered i s) ∧ SigSettled i (f.signature.mapSymbols i.symIn)

theorem FuncDone.later {p f h i h' i'} (a : Later h i h' i') (hd : FuncDone p f h i) : FuncDone p f h' i' := by
  obtain ⟨h1, h2, h3⟩ := hd
  obtain ⟨g1, g2⟩ := a.func h1 h3
  have e : f.signature.mapSymbols i'.symIn = f.signature.mapSymbols i.symIn :=
    mapSymbols_congr_sig _ fun s hs => a.ext.symIn (h2 s hs)
  exact ⟨by rw [e]; exact g1, fun s hs => a.ext.covered (h2 s hs), by rw [e]; exact g2⟩

theorem FuncDone.of_sig {p f h i s j} (hv : f.signature.valid = true) {f1 : FuncSpec}
    (hk : h.funcs p = some f ∨ FuncDone p f h i) (h1 : h.funcs p = some f1)
    (h2 : ensureAllTypesImported f1.signature i = (.ok s, j)) :
    FuncDone p f { h with funcs := upd h.funcs p { f1 with signature := s } } j := by
  rcases hk with hq | hd
  · rw [hq] at h1
    obtain rfl := Option.some.inj h1
    obtain ⟨k, g1, g2, _⟩ := ensureAllTypesImported_eq (i := i) hv
    have g3 := ensureAllTypesImported_settled h2
    rw [h2] at g1
    simp only [Prod.mk.injEq, Outcome.ok.injEq] at g1
    obtain ⟨rfl, rfl⟩ := g1
    exact ⟨upd_same .., g2, g3⟩
  · exact hd.later (.step (.refl _ _) (.func h1 h2))

theorem funcOk_step {p f h i h' i'} (hv : f.signature.valid = true) (s : QStep h i h' i')
    (hk : h.funcs p = some f ∨ FuncDone p f h i) : h'.funcs p = some f ∨ FuncDone p f h' i' := by
  rcases hk with hq | hd
  · cases s with
    | @func q f1 s _ h1 h2 =>
      by_cases hpq : p = q
      · subst hpq
        exact .inr (.of_sig hv (.inl hq) h1 h2)
      · exact .inl ((upd_ne _ _ hpq).trans hq)
    | _ => exact .inl hq
  · exact .inr (hd.later (.step (.refl _ _) s))

theorem funcOk_steps {p f h i h' i'} (hv : f.signature.valid = true) (s : QSteps h i h' i')
    (hk : h.funcs p = some f ∨ FuncDone p f h i) : h'.funcs p = some f ∨ FuncDone p f h' i' := by
  induction s with
  | refl => exact hk
  | step _ s ih => exact funcOk_step hv s ih

theorem line_done {tbl h0 q l fmt} (hl : ∀ a ∈ l, a.writable h0) : ∀ {cb : CodeBlock} {h i h' i'},
    LineOk tbl h0 q l h i → .line fmt q ∈ cb → qualifyCode cb h i = (.ok (), h', i') →
    LineDone tbl h0 q l h' i'
  | [], _, _, _, _, _, hm, _ => by simp at hm
  | e :: cb, h, i, h', i', hk, hm, hx => by
    obtain ⟨u, h1, i1, e1, e2⟩ := QM.bind_eq_ok hx
    have s1 := steps_codeElem e h i
    rw [e1] at s1
    rcases List.mem_cons.1 hm with rfl | hm
    · have l2 := (QM.Steps.forEach steps_codeElem cb).later e2
      refine LineDone.later l2 ?_
      simp only [CodeElem.qualify] at e1
      split at e1
      · simp at e1
      · rename_i l1 hl1
        rcases hq : qualifyArgList h l1 i with ⟨o, l', i2⟩
        simp only [hq, Prod.mk.injEq] at e1
        obtain ⟨rfl, rfl, rfl⟩ := e1
        exact .of_args hl hk hl1 hq
    · exact line_done hl (hk.steps hl s1) hm e2

/-- What becomes of a function of a file and of the lines of its code. -/
theorem func_done (tbl : Nat → Bool) {fuel : Nat} {p : Ptr} {f : FuncSpec} (hv : f.signature.valid = true)
    (h0 : Heap) : ∀ {es : List FileElem} {h i h' i'}, Inv i → Follows h0 h →
    (h.funcs p = some f ∨ FuncDone p f h i) →
    (∀ q l, (∀ a ∈ l, a.writable h0) → h0.args q = some l → LineOk tbl h0 q l h i) →
    .func p ∈ es → QM.forEach (FileElem.qualify fuel) es h i = (.ok (), h', i') →
    FuncDone p f h' i' ∧ ∀ fmt q l, .line fmt q ∈ f.code → (∀ a ∈ l, a.writable h0) → h0.args q = some l →
      LineDone tbl h0 q l h' i'
  | [], _, _, _, _, _, _, _, _, hm, _ => by simp at hm
  | e :: es, h, i, h', i', hi, hfo, hf, hq, hm, hx => by
    obtain ⟨u, h1, i1, e1, e2⟩ := QM.bind_eq_ok hx
    rcases List.mem_cons.1 hm with rfl | hm
    · have l2 := (steps_fileElems fuel es).later e2
      suffices hs : FuncDone p f h1 i1 ∧ ∀ fmt q l, .line fmt q ∈ f.code → (∀ a ∈ l, a.writable h0) →
          h0.args q = some l → LineDone tbl h0 q l h1 i1 from
        ⟨hs.1.later l2, fun fmt q l g1 g2 g3 => (hs.2 fmt q l g1 g2 g3).later l2⟩
      obtain ⟨f1, g1, e1⟩ := QM.bind_read_eq_ok (m := (·.funcs)) e1
      obtain ⟨s, i2, g2, e1⟩ := QM.bind_lift_eq_ok e1
      obtain ⟨_, h2, i3, g3, e1⟩ := QM.bind_eq_ok e1
      simp only [QM.modify, Prod.mk.injEq, true_and] at g3
      obtain ⟨rfl, rfl⟩ := g3
      have st : QStep h i { h with funcs := upd h.funcs p { f1 with signature := s } } i2 := .func g1 g2
      have d := FuncDone.of_sig hv hf g1 g2
      have l3 := (QM.Steps.forEach steps_codeElem f1.code).later e1
      refine ⟨d.later l3, fun fmt q l k1 k2 k3 => ?_⟩
      have hc : f1.code = f.code := by
        rcases hf with hf | hf
        · rw [g1] at hf; cases hf; rfl
        · obtain ⟨k, -, -⟩ := hf; rw [g1] at k; cases k; rfl
      exact line_done k2 ((hq q l k2 k3).step k2 st) (hc ▸ k1) e1
    · have s1 := steps_fileElem fuel e h i
      rw [e1] at s1
      exact func_done tbl hv h0 (s1.evolves.inv hi) (hfo.steps s1) (funcOk_steps hv s1 hf)
        (fun q l k1 k2 => (hq q l k1 k2).steps k1 s1) hm e2

end Gopoet
