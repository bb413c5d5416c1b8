import Verif.Proof.KnownData
import Verif.Proof.ResolveLemmas
/-!
# After a qualification pass: every package that was mentioned is imported, and no package is
imported under a name that it does not have
-/

namespace Gopoet
open Imports

/-! ### What an argument stands for stays the same -/

/-- `Stays`, also for constants and variables. -/
structure StaysAll (h h' : Heap) : Prop extends Stays h h' where
  values : ∀ p c, h.values p = some c → ∃ c', h'.values p = some c' ∧ c'.names = c.names ∧ c'.parent = c.parent

theorem QStep.staysAll {h i h' i'} (a : QStep h i h' i') : StaysAll h h' := by
  refine ⟨a.stays, ?_⟩
  cases a with
  | @value p c t t' _ hc _ _ =>
    intro q c' hq
    by_cases hqp : q = p
    · subst hqp
      rw [hc] at hq
      obtain rfl := Option.some.inj hq
      exact ⟨_, upd_same .., rfl, rfl⟩
    · exact ⟨c', (upd_ne _ _ hqp).trans hq, rfl, rfl⟩
  | _ => exact fun q c hq => ⟨c, hq, rfl, rfl⟩

theorem StaysAll.denotes {h h' : Heap} (s : StaysAll h h') {a : Arg} {r : Reference} (hd : Denotes h a r) :
    Denotes h' a r := by
  have file : ∀ {p f}, h.files p = some f → ∃ f', h'.files p = some f' ∧
      f'.imports.pkgPath = f.imports.pkgPath ∧ f'.packageName = f.packageName := by
    intro p f hf
    obtain ⟨f', h1, h2⟩ := s.files p f hf
    simp only [GoFile.package, Package.mk.injEq] at h2
    exact ⟨f', h1, h2⟩
  cases hd with
  | value h1 h2 h3 h4 =>
    obtain ⟨c', g1, g2, g3⟩ := s.values _ _ h1
    obtain ⟨f', f1, f2, f3⟩ := file h4
    rw [← f2, ← f3]
    exact .value g1 (g2.trans h2) (g3.trans h3) f1
  | typeSpec h1 h2 h3 h4 =>
    obtain ⟨c', g1, g2, g3⟩ := s.types _ _ h1
    obtain ⟨f', f1, f2, f3⟩ := file h4
    rw [← f2, ← f3, ← g2]
    exact .typeSpec g1 (g2 ▸ h2) (g3.trans h3) f1
  | func h1 h2 h3 h4 =>
    obtain ⟨c', g1, g2, g3, g4⟩ := s.funcs _ _ h1
    obtain ⟨f', f1, f2, f3⟩ := file h4
    rw [← f2, ← f3, ← g2]
    exact .func g1 (g3.trans h2) (g4.trans h3) f1
  | method h1 h2 h3 h4 =>
    obtain ⟨c', g1, g2, g3, g4⟩ := s.funcs _ _ h1
    obtain ⟨f', f1, f2, f3⟩ := file h4
    rw [← f2, ← f3, ← g2]
    exact .method g1 (g3.trans h2) (g4.trans h3) f1
  | ifaceMethod h1 h2 h3 h4 h5 h6 =>
    obtain ⟨m', g1, g2, g3⟩ := s.methods _ _ h1
    obtain ⟨t', e1, e2, e3⟩ := s.types _ _ h3
    obtain ⟨f', f1, f2, f3⟩ := file h6
    rw [← f2, ← f3, ← g2, ← e2]
    exact .ifaceMethod g1 (g3.trans h2) e1 (e2 ▸ h4) (e3.trans h5) f1
  | package => exact .package _
  | packagePtr => exact .packagePtr _
  | symbol => exact .symbol _
  | symbolPtr => exact .symbolPtr _
  | mref => exact .mref _
  | mrefPtr => exact .mrefPtr _
  | typeName => exact .typeName _
  | reflectType h => exact .reflectType h
  | goType h => exact .goType h
  | goSymbol h => exact .goSymbol h
  | goMethod h => exact .goMethod h
  | goPackage => exact .goPackage _ _

theorem StaysAll.writtenArg {h h' : Heap} (s : StaysAll h h') {a : Arg} {pk : Package}
    (hw : WrittenArg h a pk) : WrittenArg h' a pk := by
  cases hw with
  | ref h1 h2 => exact .ref (s.denotes h1) h2
  | sig h1 => exact .sig h1
  | sigPtr h1 => exact .sigPtr h1

/-! ### What is mentioned is still mentioned, or it was registered -/

/-- From `h` to `h'`, what is mentioned stays or is among `K`. -/
structure Carries (K : Package → Prop) (h h' : Heap) : Prop where
  valueDecls : h'.valueDecls = h.valueDecls
  typeDecls : h'.typeDecls = h.typeDecls
  blocks : h'.blocks = h.blocks
  types : ∀ {p ts}, h.types p = some ts → h'.types p = some ts ∨
    ∃ u, h'.types p = some { ts with underlying := u } ∧
      ∀ pk ∈ ts.underlying.symbols.map (·.package), K pk
  fields : ∀ {p f}, h.fields p = some f → h'.fields p = some f ∨
    ∃ t, f.type = .name t ∧ ∀ pk ∈ t.symbols.map (·.package), K pk
  values : ∀ {p c}, h.values p = some c → h'.values p = some c ∨
    ∃ t t', c.type = .name t ∧ h'.values p = some { c with type := .name t' } ∧
      ∀ pk ∈ t.symbols.map (·.package), K pk
  embeds : ∀ {p e}, h.embeds p = some e → h'.embeds p = some e ∨ K e.type.package
  methods : ∀ {p m}, h.methods p = some m → h'.methods p = some m ∨
    ∀ pk ∈ m.signature.symbols.map (·.package), K pk
  funcs : ∀ {p f}, h.funcs p = some f → h'.funcs p = some f ∨
    ∃ s, h'.funcs p = some { f with signature := s } ∧ ∀ pk ∈ f.signature.symbols.map (·.package), K pk
  args : ∀ {p l}, h.args p = some l → ∃ l', h'.args p = some l' ∧
    ∀ a ∈ l, ∀ pk, WrittenArg h a pk → K pk ∨ (a ∈ l' ∧ WrittenArg h' a pk)
  templs : ∀ {p t}, h.templs p = some t → h'.templs p = some t ∨
    ∀ pk ∈ (TVal.iface acceptsAll t.data).refs, K pk

namespace Carries
variable {K : Package → Prop} {h h' : Heap}

theorem codeElem (c : Carries K h h') {x : CodeElem} {pk : Package} (hw : WrittenCodeElem h x pk) :
    K pk ∨ WrittenCodeElem h' x pk := by
  cases hw with
  | line h1 h2 h3 =>
    obtain ⟨l', h4, h5⟩ := c.args h1
    rcases h5 _ h2 _ h3 with h | ⟨h6, h7⟩
    · exact .inl h
    · exact .inr (.line h4 h6 h7)
  | templ h1 h2 =>
    rcases c.templs h1 with h | h
    · exact .inr (.templ h h2)
    · exact .inl (h _ h2)

theorem ifaceElem (c : Carries K h h') {x : IfaceElem} {pk : Package} (hw : WrittenIfaceElem h x pk) :
    K pk ∨ WrittenIfaceElem h' x pk := by
  cases hw with
  | embed h1 =>
    rcases c.embeds h1 with h | h
    · exact .inr (.embed h)
    · exact .inl h
  | method h1 h2 =>
    rcases c.methods h1 with h | h
    · exact .inr (.method h h2)
    · exact .inl (h _ h2)

/-- the spec is there, with the same name and bodies -/
theorem spec (c : Carries K h h') {p ts} (ht : h.types p = some ts) :
    ∃ ts', h'.types p = some ts' ∧ ts'.name = ts.name ∧ ts'.structBody = ts.structBody ∧
      ts'.interfaceBody = ts.interfaceBody := by
  rcases c.types ht with h | ⟨u, h, _⟩
  · exact ⟨_, h, rfl, rfl, rfl⟩
  · exact ⟨_, h, rfl, rfl, rfl⟩

theorem body (c : Carries K h h') {p : Ptr} {pk : Package} (hw : WrittenBody h p pk) :
    K pk ∨ WrittenBody h' p pk := by
  induction hw with
  | underlying h1 h2 =>
    rcases c.types h1 with h | ⟨u, h, hk⟩
    · exact .inr (.underlying h h2)
    · exact .inl (hk _ h2)
  | field h1 h2 h3 h4 h5 =>
    obtain ⟨ts', g1, _, g2, _⟩ := c.spec h1
    rcases c.fields h3 with h | ⟨t, h, hk⟩
    · exact .inr (.field g1 (g2 ▸ h2) h h4 h5)
    · rw [h4] at h
      cases h
      exact .inl (hk _ h5)
  | unnamed h1 h2 h3 h4 h5 h6 _ ih =>
    obtain ⟨ts', g1, _, g2, _⟩ := c.spec h1
    obtain ⟨tr', g3, g4, _, _⟩ := c.spec h5
    rcases ih with ih | ih
    · exact .inl ih
    · rcases c.fields h3 with h | ⟨t, h, _⟩
      · exact .inr (.unnamed g1 (g2 ▸ h2) h h4 g3 (g4.trans h6) ih)
      · rw [h4] at h
        cases h
  | iface h1 h2 h3 =>
    obtain ⟨ts', g1, _, _, g2⟩ := c.spec h1
    rcases c.ifaceElem h3 with h | h
    · exact .inl h
    · exact .inr (.iface g1 (g2 ▸ h2) h)

theorem written (c : Carries K h h') {e : FileElem} {pk : Package} (hw : Written h e pk) :
    K pk ∨ Written h' e pk := by
  cases hw with
  | valueType h1 h2 h3 h4 h5 =>
    rcases c.values h3 with h | ⟨t, t', ht, h, hk⟩
    · exact .inr (.valueType (c.valueDecls ▸ h1) h2 h h4 h5)
    · rw [h4] at ht
      cases ht
      exact .inl (hk _ h5)
  | valueSpec h1 h2 h3 h4 h5 h6 h7 =>
    obtain ⟨tr', g3, g4, _, _⟩ := c.spec h5
    rcases c.body h7 with h | hb
    · exact .inl h
    · rcases c.values h3 with h | ⟨t, t', ht, h, hk⟩
      · exact .inr (.valueSpec (c.valueDecls ▸ h1) h2 h h4 g3 (g4.trans h6) hb)
      · rw [h4] at ht
        cases ht
  | valueInit h1 h2 h3 h4 h5 h6 h7 =>
    rcases c.codeElem h7 with h | hb
    · exact .inl h
    · rcases c.values h3 with h | ⟨t, t', ht, h, hk⟩
      · exact .inr (.valueInit (c.valueDecls ▸ h1) h2 h h4 (c.blocks ▸ h5) h6 hb)
      · exact .inr (.valueInit (c.valueDecls ▸ h1) h2 h (by exact h4) (c.blocks ▸ h5) h6 hb)
  | type h1 h2 h3 =>
    rcases c.body h3 with h | hb
    · exact .inl h
    · exact .inr (.type (c.typeDecls ▸ h1) h2 hb)
  | funcSig h1 h2 =>
    rcases c.funcs h1 with h | ⟨s, h, hk⟩
    · exact .inr (.funcSig h h2)
    · exact .inl (hk _ h2)
  | funcCode h1 h2 h3 =>
    rcases c.codeElem h3 with h | hb
    · exact .inl h
    · rcases c.funcs h1 with h | ⟨s, h, hk⟩
      · exact .inr (.funcCode h h2 hb)
      · exact .inr (.funcCode h (by exact h2) hb)

end Carries

/-- Each argument was left alone or everything it mentions was registered. -/
theorem qualifyArgList_carries {h : Heap} : ∀ {l l' : List Arg} {i j : Imports} {o},
    qualifyArgList h l i = (o, l', j) →
    ∀ a ∈ l, a ∈ l' ∨ ∀ pk, WrittenArg h a pk ∨ pk ∈ a.packages → PkgKnown j pk
  | [], l', i, j, o, hx => by simp
  | a :: l, l', i, j, o, hx => by
    rw [qualifyArgList] at hx
    rcases ha : qualifyArg h a i with ⟨_ | _ | _, i1⟩ <;> rw [ha] at hx
    · rcases hl : qualifyArgList h l i1 with ⟨o, l1, i2⟩
      simp only [hl, Prod.mk.injEq] at hx
      obtain ⟨rfl, rfl, rfl⟩ := hx
      have ih := qualifyArgList_carries hl
      have hev := (evolves_qualifyArgList h l i1).1
      rw [hl] at hev
      intro b hb
      rcases List.mem_cons.1 hb with rfl | hb
      · exact .inr fun pk hpk => hev.ext.known ((registers_qualifyArg h b _ _ _ ha).2 pk hpk)
      · exact (ih b hb).imp (by simp +contextual) id
    · simp only [Prod.mk.injEq] at hx
      obtain ⟨rfl, rfl, rfl⟩ := hx
      exact fun b hb => .inl hb
    · simp only [Prod.mk.injEq] at hx
      obtain ⟨rfl, rfl, rfl⟩ := hx
      exact fun b hb => .inl hb

theorem QStep.carries {h i h' i'} (a : QStep h i h' i') : Carries (PkgKnown i') h h' := by
  have hs := a.staysAll
  have hargs : h'.args = h.args → ∀ {p l}, h.args p = some l → ∃ l', h'.args p = some l' ∧
      ∀ a ∈ l, ∀ pk, WrittenArg h a pk → PkgKnown i' pk ∨ (a ∈ l' ∧ WrittenArg h' a pk) :=
    fun he p l hl => ⟨l, by rw [he]; exact hl, fun a ha pk hw => .inr ⟨ha, hs.writtenArg hw⟩⟩
  cases a with
  | imports => exact ⟨rfl, rfl, rfl, .inl, .inl, .inl, .inl, .inl, .inl, hargs rfl, .inl⟩
  | @type p ts u _ hp hu =>
    refine ⟨rfl, rfl, rfl, ?_, .inl, .inl, .inl, .inl, .inl, hargs rfl, .inl⟩
    intro q x hq
    by_cases hqp : q = p
    · subst hqp
      rw [hp] at hq
      obtain rfl := Option.some.inj hq
      exact .inr ⟨u, upd_same .., (registers_ensureTypeImported _ _ _ _ hu).2⟩
    · exact .inl ((upd_ne _ _ hqp).trans hq)
  | @field p f t t' _ hp ht hu =>
    refine ⟨rfl, rfl, rfl, .inl, ?_, .inl, .inl, .inl, .inl, hargs rfl, .inl⟩
    intro q x hq
    by_cases hqp : q = p
    · subst hqp
      rw [hp] at hq
      obtain rfl := Option.some.inj hq
      exact .inr ⟨t, ht, (registers_ensureTypeImported _ _ _ _ hu).2⟩
    · exact .inl ((upd_ne _ _ hqp).trans hq)
  | @value p f t t' _ hp ht hu =>
    refine ⟨rfl, rfl, rfl, .inl, .inl, ?_, .inl, .inl, .inl, hargs rfl, .inl⟩
    intro q x hq
    by_cases hqp : q = p
    · subst hqp
      rw [hp] at hq
      obtain rfl := Option.some.inj hq
      exact .inr ⟨t, t', ht, upd_same .., (registers_ensureTypeImported _ _ _ _ hu).2⟩
    · exact .inl ((upd_ne _ _ hqp).trans hq)
  | @embed p e s _ hp hu =>
    refine ⟨rfl, rfl, rfl, .inl, .inl, .inl, ?_, .inl, .inl, hargs rfl, .inl⟩
    intro q x hq
    by_cases hqp : q = p
    · subst hqp
      rw [hp] at hq
      obtain rfl := Option.some.inj hq
      exact .inr ((registers_ensureImported _ _ _ _ hu).2 _ rfl)
    · exact .inl ((upd_ne _ _ hqp).trans hq)
  | @method p e s _ hp hu =>
    refine ⟨rfl, rfl, rfl, .inl, .inl, .inl, .inl, ?_, .inl, hargs rfl, .inl⟩
    intro q x hq
    by_cases hqp : q = p
    · subst hqp
      rw [hp] at hq
      obtain rfl := Option.some.inj hq
      exact .inr (registers_ensureAllTypesImported _ _ _ _ hu).2
    · exact .inl ((upd_ne _ _ hqp).trans hq)
  | @func p e s _ hp hu =>
    refine ⟨rfl, rfl, rfl, .inl, .inl, .inl, .inl, .inl, ?_, hargs rfl, .inl⟩
    intro q x hq
    by_cases hqp : q = p
    · subst hqp
      rw [hp] at hq
      obtain rfl := Option.some.inj hq
      exact .inr ⟨s, upd_same .., (registers_ensureAllTypesImported _ _ _ _ hu).2⟩
    · exact .inl ((upd_ne _ _ hqp).trans hq)
  | @templ p e s _ hp hu =>
    refine ⟨rfl, rfl, rfl, .inl, .inl, .inl, .inl, .inl, .inl, hargs rfl, ?_⟩
    intro q x hq
    by_cases hqp : q = p
    · subst hqp
      rw [hp] at hq
      obtain rfl := Option.some.inj hq
      exact .inr fun pk hpk => (registers_qualifyTemplateData _ _ _ _ _ hu).2 pk (TVal.refs_sub _ hpk)
    · exact .inl ((upd_ne _ _ hqp).trans hq)
  | @args p l l' o _ hp hu =>
    refine ⟨rfl, rfl, rfl, .inl, .inl, .inl, .inl, .inl, .inl, ?_, .inl⟩
    intro q x hq
    by_cases hqp : q = p
    · subst hqp
      rw [hp] at hq
      obtain rfl := Option.some.inj hq
      refine ⟨_, upd_same .., fun a ha pk hw => ?_⟩
      rcases qualifyArgList_carries hu a ha with h1 | h1
      · exact .inr ⟨h1, hs.writtenArg hw⟩
      · exact .inl (h1 pk (.inl hw))
    · exact ⟨x, (upd_ne _ _ hqp).trans hq, fun a ha pk hw => .inr ⟨ha, hs.writtenArg hw⟩⟩

/-- What is mentioned before a pass is mentioned after it, or it is imported. -/
theorem Later.written {h i h' i'} (a : Later h i h' i') {e : FileElem} {pk : Package}
    (hw : Written h e pk) : PkgKnown i' pk ∨ Written h' e pk := by
  refine a.induct (P := fun h i => PkgKnown i pk ∨ Written h e pk) ?_ ?_ (.inr hw)
  · rintro h i h' i' s (hp | hp)
    · exact .inl (s.ext.known hp)
    · exact s.carries.written hp
  · rintro h i files hf (hp | hp)
    · exact .inl hp
    · have hs : StaysAll h { h with files } :=
        ⟨(Later.file (.refl h i) hf).stays, fun _ c hc => ⟨c, hc, rfl, rfl⟩⟩
      refine .inr (Or.resolve_left (Carries.written (K := fun _ => False) ?_ hp) id)
      exact ⟨rfl, rfl, rfl, .inl, .inl, .inl, .inl, .inl, .inl,
        fun hl => ⟨_, hl, fun a ha pk hw => .inr ⟨ha, hs.writtenArg hw⟩⟩, .inl⟩

/-! ### What is mentioned afterwards was mentioned before, or is imported -/

theorem TypeSettled.known {i : Imports} {t : TypeName} (h : TypeSettled i t) {pk}
    (hp : pk ∈ t.symbols.map (·.package)) : PkgKnown i pk := (h.written hp).known
theorem SigSettled.known {i : Imports} {t : Signature} (h : SigSettled i t) {pk}
    (hp : pk ∈ t.symbols.map (·.package)) : PkgKnown i pk := (h.written hp).known

theorem qualifyArgList_mentioned {h : Heap} : ∀ {l l' : List Arg} {i j : Imports} {o},
    qualifyArgList h l i = (o, l', j) →
    ∀ a ∈ l', a ∈ l ∨ ∀ pk ∈ a.packages, PkgKnown j pk
  | [], l', i, j, o, hx => by
    simp only [qualifyArgList, Prod.mk.injEq] at hx
    obtain ⟨-, rfl, -⟩ := hx
    simp
  | a :: l, l', i, j, o, hx => by
    rw [qualifyArgList] at hx
    rcases ha : qualifyArg h a i with ⟨a' | _ | _, i1⟩ <;> rw [ha] at hx
    · rcases hl : qualifyArgList h l i1 with ⟨o, l1, i2⟩
      simp only [hl, Prod.mk.injEq] at hx
      obtain ⟨rfl, rfl, rfl⟩ := hx
      have ih := qualifyArgList_mentioned hl
      have hev := (evolves_qualifyArgList h l i1).1
      rw [hl] at hev
      intro b hb
      rcases List.mem_cons.1 hb with rfl | hb
      · exact .inr fun pk hpk => hev.ext.known
          ((registers_qualifyArg h b _ _ _ (qualifyArg_of_settled (qualifyArg_settled ha))).2 pk (.inr hpk))
      · exact (ih b hb).imp (by simp +contextual) id
    · simp only [Prod.mk.injEq] at hx
      obtain ⟨rfl, rfl, rfl⟩ := hx
      exact fun b hb => .inl hb
    · simp only [Prod.mk.injEq] at hx
      obtain ⟨rfl, rfl, rfl⟩ := hx
      exact fun b hb => .inl hb

theorem QStep.mentioned {h i h' i'} (a : QStep h i h' i') {pk : Package}
    (hm : Mentioned h' pk) : Mentioned h pk ∨ PkgKnown i' pk ∨ (pk.importPath = [] ∧ ¬ NoSpecData h) := by
  cases a with
  | imports _ => exact .inl hm
  | @type p ts u _ hp hu =>
    cases hm with
    | @type q x _ hq hw =>
      by_cases hqp : q = p
      · subst hqp
        simp only [upd_same, Option.some.injEq] at hq
        subst hq
        exact .inr (.inl <| (ensureTypeImported_settled hu).known hw)
      · exact .inl (.type ((upd_ne _ _ hqp).symm.trans hq) hw)
    | file h1 => exact .inl (.file h1)
    | value h1 h2 h3 => exact .inl (.value h1 h2 h3)
    | field h1 h2 h3 => exact .inl (.field h1 h2 h3)
    | embed h1 => exact .inl (.embed h1)
    | method h1 h2 => exact .inl (.method h1 h2)
    | func h1 h2 => exact .inl (.func h1 h2)
    | arg h1 h2 h3 => exact .inl (.arg h1 h2 h3)
    | templ h1 h2 => exact .inl (.templ h1 h2)
  | @field p f t t' _ hp ht hu =>
    cases hm with
    | @field q x t1 _ hq ht1 hw =>
      by_cases hqp : q = p
      · subst hqp
        simp only [upd_same, Option.some.injEq] at hq
        subst hq
        cases ht1
        exact .inr (.inl <| (ensureTypeImported_settled hu).known hw)
      · exact .inl (.field ((upd_ne _ _ hqp).symm.trans hq) ht1 hw)
    | file h1 => exact .inl (.file h1)
    | value h1 h2 h3 => exact .inl (.value h1 h2 h3)
    | type h1 h2 => exact .inl (.type h1 h2)
    | embed h1 => exact .inl (.embed h1)
    | method h1 h2 => exact .inl (.method h1 h2)
    | func h1 h2 => exact .inl (.func h1 h2)
    | arg h1 h2 h3 => exact .inl (.arg h1 h2 h3)
    | templ h1 h2 => exact .inl (.templ h1 h2)
  | @value p f t t' _ hp ht hu =>
    cases hm with
    | @value q x t1 _ hq ht1 hw =>
      by_cases hqp : q = p
      · subst hqp
        simp only [upd_same, Option.some.injEq] at hq
        subst hq
        cases ht1
        exact .inr (.inl <| (ensureTypeImported_settled hu).known hw)
      · exact .inl (.value ((upd_ne _ _ hqp).symm.trans hq) ht1 hw)
    | file h1 => exact .inl (.file h1)
    | type h1 h2 => exact .inl (.type h1 h2)
    | field h1 h2 h3 => exact .inl (.field h1 h2 h3)
    | embed h1 => exact .inl (.embed h1)
    | method h1 h2 => exact .inl (.method h1 h2)
    | func h1 h2 => exact .inl (.func h1 h2)
    | arg h1 h2 h3 => exact .inl (.arg h1 h2 h3)
    | templ h1 h2 => exact .inl (.templ h1 h2)
  | @embed p e s _ hp hu =>
    cases hm with
    | @embed q x hq =>
      by_cases hqp : q = p
      · subst hqp
        simp only [upd_same, Option.some.injEq] at hq
        subst hq
        exact .inr (.inl (ensureImported_settled hu).known)
      · exact .inl (.embed ((upd_ne _ _ hqp).symm.trans hq))
    | file h1 => exact .inl (.file h1)
    | value h1 h2 h3 => exact .inl (.value h1 h2 h3)
    | type h1 h2 => exact .inl (.type h1 h2)
    | field h1 h2 h3 => exact .inl (.field h1 h2 h3)
    | method h1 h2 => exact .inl (.method h1 h2)
    | func h1 h2 => exact .inl (.func h1 h2)
    | arg h1 h2 h3 => exact .inl (.arg h1 h2 h3)
    | templ h1 h2 => exact .inl (.templ h1 h2)
  | @method p e s _ hp hu =>
    cases hm with
    | @method q x _ hq hw =>
      by_cases hqp : q = p
      · subst hqp
        simp only [upd_same, Option.some.injEq] at hq
        subst hq
        exact .inr (.inl <| (ensureAllTypesImported_settled hu).known hw)
      · exact .inl (.method ((upd_ne _ _ hqp).symm.trans hq) hw)
    | file h1 => exact .inl (.file h1)
    | value h1 h2 h3 => exact .inl (.value h1 h2 h3)
    | type h1 h2 => exact .inl (.type h1 h2)
    | field h1 h2 h3 => exact .inl (.field h1 h2 h3)
    | embed h1 => exact .inl (.embed h1)
    | func h1 h2 => exact .inl (.func h1 h2)
    | arg h1 h2 h3 => exact .inl (.arg h1 h2 h3)
    | templ h1 h2 => exact .inl (.templ h1 h2)
  | @func p e s _ hp hu =>
    cases hm with
    | @func q x _ hq hw =>
      by_cases hqp : q = p
      · subst hqp
        simp only [upd_same, Option.some.injEq] at hq
        subst hq
        exact .inr (.inl <| (ensureAllTypesImported_settled hu).known hw)
      · exact .inl (.func ((upd_ne _ _ hqp).symm.trans hq) hw)
    | file h1 => exact .inl (.file h1)
    | value h1 h2 h3 => exact .inl (.value h1 h2 h3)
    | type h1 h2 => exact .inl (.type h1 h2)
    | field h1 h2 h3 => exact .inl (.field h1 h2 h3)
    | embed h1 => exact .inl (.embed h1)
    | method h1 h2 => exact .inl (.method h1 h2)
    | arg h1 h2 h3 => exact .inl (.arg h1 h2 h3)
    | templ h1 h2 => exact .inl (.templ h1 h2)
  | @templ p e s _ hp hu =>
    cases hm with
    | @templ q x _ hq hw =>
      by_cases hqp : q = p
      · subst hqp
        simp only [upd_same, Option.some.injEq] at hq
        subst hq
        by_cases hs : e.data.noSpecs = true
        · exact .inr (.inl (qualifyTemplateData_known hs hu hw))
        · exact .inr (((qualifyTemplateData_out (leaves_known _) hu).1 pk hw).imp_right fun h1 => ⟨h1, fun hn => hs (hn _ _ hp)⟩)
      · exact .inl (.templ ((upd_ne _ _ hqp).symm.trans hq) hw)
    | file h1 => exact .inl (.file h1)
    | value h1 h2 h3 => exact .inl (.value h1 h2 h3)
    | type h1 h2 => exact .inl (.type h1 h2)
    | field h1 h2 h3 => exact .inl (.field h1 h2 h3)
    | embed h1 => exact .inl (.embed h1)
    | method h1 h2 => exact .inl (.method h1 h2)
    | func h1 h2 => exact .inl (.func h1 h2)
    | arg h1 h2 h3 => exact .inl (.arg h1 h2 h3)
  | @args p l l' o _ hp hu =>
    cases hm with
    | @arg q x a _ hq ha hw =>
      by_cases hqp : q = p
      · subst hqp
        simp only [upd_same, Option.some.injEq] at hq
        subst hq
        rcases qualifyArgList_mentioned hu a ha with h1 | h1
        · exact .inl (.arg hp h1 hw)
        · exact .inr (.inl (h1 pk hw))
      · exact .inl (.arg ((upd_ne _ _ hqp).symm.trans hq) ha hw)
    | file h1 => exact .inl (.file h1)
    | value h1 h2 h3 => exact .inl (.value h1 h2 h3)
    | type h1 h2 => exact .inl (.type h1 h2)
    | field h1 h2 h3 => exact .inl (.field h1 h2 h3)
    | embed h1 => exact .inl (.embed h1)
    | method h1 h2 => exact .inl (.method h1 h2)
    | func h1 h2 => exact .inl (.func h1 h2)
    | templ h1 h2 => exact .inl (.templ h1 h2)

theorem Later.inv {h i h' i'} (a : Later h i h' i') (hi : Inv i) : Inv i' :=
  a.induct (P := fun _ i => Inv i) (fun _ _ _ _ s hi => s.evolves.inv hi) (fun _ _ _ _ hi => hi) hi

/-! ### Names of imports that are no aliases are true -/

/-- The name is not given, or one that `R` allows, or will not be looked at. -/
def NameOrKnown (R : GoString → GoString → Prop) (i : Imports) (pk : Package) : Prop :=
  pk.name = [] ∨ R pk.importPath pk.name ∨ PkgKnown i pk

/-- The name is not given, or true, or will not be looked at. -/
abbrev TrueOrKnown (realName : GoString → GoString) (i : Imports) (pk : Package) : Prop :=
  NameOrKnown (fun p n => n = realName p) i pk

theorem Ext.nameOrKnown {R} {i j : Imports} (h : Ext i j) {pk : Package}
    (hp : NameOrKnown R i pk) : NameOrKnown R j pk :=
  hp.imp id (Or.imp id h.known)

theorem Step.namesBy {R} {P : Package → Prop} {i j : Imports} (hs : Step P i j)
    (hP : ∀ pk, P pk → j.importsByPath.get pk.importPath ≠ none → NameOrKnown R i pk)
    (ht : NamesBy R i) : NamesBy R j := by
  obtain ⟨pkg, q, hp, hown, hnone, hff, rfl⟩ := hs
  intro p d hd ha
  simp only [Imports.add, GoMap.get_set] at hd
  split at hd
  · rename_i he
    obtain rfl := Option.some.inj hd
    simp only [decide_eq_false_iff_not, ne_eq, not_not] at ha
    have hne := hff.ne_nil (baseName_ne_nil pkg)
    dsimp only
    rcases hP pkg hp (by simp [Imports.add]) with h | h | h | h | h
    · exact absurd (ha.trans h) hne
    · rw [ha]; subst he; exact h
    · rw [ha, h] at hne; simp at hne
    · exact absurd h hown
    · exact absurd hnone h
  · exact ht p d hd ha

theorem Evolves.namesBy {R} {P : Package → Prop} {i j : Imports} (h : Evolves P i j)
    (hP : ∀ pk, P pk → j.importsByPath.get pk.importPath ≠ none → NameOrKnown R i pk)
    (ht : NamesBy R i) : NamesBy R j := by
  induction h with
  | refl => exact ht
  | step he hs ih =>
    have hs' := hs.ext
    exact hs.namesBy (fun pk hp hj => he.ext.nameOrKnown (hP pk hp hj))
      (ih fun pk hp hj => hP pk hp (hs'.imported hj))

/-- What is known before and after a pass: nothing is mentioned with a name that `R` does not allow, unless it is imported
or, without `N`, has the package path "" of the copies of specs in template data. -/
structure NameState (R : GoString → GoString → Prop) (N : Prop) (h : Heap) (i : Imports) : Prop where
  names : NamesBy R i
  mentioned : ∀ pk, Mentioned h pk → NameOrKnown R i pk ∨ (pk.importPath = [] ∧ ¬ N)

theorem Later.names {R h i h' i'} (a : Later h i h' i') (ht : NameState R (NoSpecData h) h i)
    (hn : NoSpecData h ∨ i'.importsByPath.get [] = none) : NameState R (NoSpecData h) h' i' := by
  have := a.induct (P := fun h1 i1 => (NoSpecData h → NoSpecData h1) ∧
    ((NoSpecData h ∨ i1.importsByPath.get [] = none) → NameState R (NoSpecData h) h1 i1)) ?_ ?_
    ⟨id, fun _ => ht⟩
  · exact this.2 hn
  · rintro h0 i h' i' s ⟨h1, h2⟩
    refine ⟨fun h => (Later.step (.refl _ _) s).noSpecData (h1 h), fun hc => ?_⟩
    have hc' : NoSpecData h ∨ i.importsByPath.get [] = none := hc.imp_right fun hj => by
      by_contra hne
      exact s.ext.imported hne hj
    obtain ⟨h2, h3⟩ := h2 hc'
    refine ⟨s.registers.namesBy (fun pk hm hj => ?_) h2, fun pk hm => ?_⟩
    · rcases h3 pk hm with h4 | ⟨h4, h5⟩
      · exact h4
      · rcases hc with hc | hc
        · exact absurd hc h5
        · exact absurd (h4 ▸ hc) hj
    · rcases s.mentioned hm with hm | hm | ⟨hm, h5⟩
      · exact (h3 pk hm).imp_left s.ext.nameOrKnown
      · exact .inl (.inr (.inr hm))
      · exact .inr ⟨hm, fun hn => h5 (h1 hn)⟩
  · rintro h0 i files hf ⟨h1, h2⟩
    refine ⟨h1, fun hc => ⟨(h2 hc).names, fun pk hm => (h2 hc).mentioned pk ?_⟩⟩
    cases hm with
    | @file p f hp =>
      obtain ⟨f', h4, h5⟩ := files_samePackages (fun p => (hf p).symm) p f hp
      rw [← h5]
      exact .file h4
    | value h1 h2 h3 => exact .value h1 h2 h3
    | type h1 h2 => exact .type h1 h2
    | field h1 h2 h3 => exact .field h1 h2 h3
    | embed h1 => exact .embed h1
    | method h1 h2 => exact .method h1 h2
    | func h1 h2 => exact .func h1 h2
    | arg h1 h2 h3 => exact .arg h1 h2 h3
    | templ h1 h2 => exact .templ h1 h2

abbrev TruthState (realName : GoString → GoString) (N : Prop) (h : Heap) (i : Imports) : Prop :=
  NameState (fun p n => n = realName p) N h i

theorem Later.truth {realName h i h' i'} (a : Later h i h' i') (ht : TruthState realName (NoSpecData h) h i)
    (hn : NoSpecData h ∨ i'.importsByPath.get [] = none) : TruthState realName (NoSpecData h) h' i' := a.names ht hn

theorem Evolves.trueNames {realName : GoString → GoString} {P : Package → Prop} {i j : Imports} (h : Evolves P i j)
    (hP : ∀ pk, P pk → j.importsByPath.get pk.importPath ≠ none → TrueOrKnown realName i pk)
    (ht : TrueNames realName i) : TrueNames realName j := h.namesBy hP ht

end Gopoet
