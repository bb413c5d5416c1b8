import Verif.Proof.BuilderRendered
import Verif.Props.FileMeaning
import Verif.Props.RefMeaning
/-! Properties C33 and C66 for whole files: every argument of a line in a file that is written. -/

namespace Gopoet
open Imports

/-- The line is code of the element. -/
inductive HasLine (h : Heap) : FileElem → Ptr → Prop
  | init {p d c v b cb fmt q} : h.valueDecls p = some d → v ∈ d.specs → h.values v = some c → c.init = some b →
      h.blocks b = some cb → .line fmt q ∈ cb → HasLine h (.values p) q
  | func {p f fmt q} : h.funcs p = some f → .line fmt q ∈ f.code → HasLine h (.func p) q

theorem prefixOf_later {i j : Imports} (e : Ext i j) {p : Package} (h : HasName i p) :
    prefixOf j p.importPath = prefixOf i p.importPath := by
  by_cases ho : p.importPath = i.pkgPath
  · rw [prefixOf_own ho, prefixOf_own (by rw [e.own]; exact ho)]
  · rcases h with h | h
    · exact absurd h ho
    · obtain ⟨d, hd⟩ := Option.ne_none_iff_exists'.1 h
      rw [prefixOf_known ho hd, prefixOf_known (by rw [e.own]; exact ho) (e.keeps _ _ hd)]

theorem stored_later {i j : Imports} (e : Ext i j) {a : Arg} {ref : Reference} (hm : ∀ p ∈ ref.mentions, HasName i p) :
    Stored a j ref ↔ Stored a i ref := by
  cases ref with
  | method m =>
    rw [Stored, Stored]
    refine imp_congr_right fun _ => and_congr_right fun hb => ?_
    rw [prefixOf_later e (hm _ (by simp [Reference.mentions, packagesOf, hb]))]
  | _ => exact Iff.rfl

/-- Everything in the reference has a name after it was qualified. -/
theorem named_after {h : Heap} {a a' : Arg} {ref : Reference} {i j : Imports} (hd : Denotes h a ref)
    (hq : qualifyArg h a i = (.ok a', j)) : ∀ p ∈ ref.mentions, HasName j p := by
  obtain rfl := effect_qualifyArg hd _ _ _ hq
  intro p hp
  rcases registerAll_known i _ p hp with h | h
  · exact .inl (by rw [(after_registerAll i ref.mentions).ext.own]; exact h)
  · exact .inr h

/-- The argument was qualified, and is now the text of the reference. -/
def ArgDone (tbl : Nat → Bool) (a : Arg) (ref : Reference) (h : Heap) (i : Imports) (a' : Arg) : Prop :=
  ArgSettled h i a' ∧ (∀ p ∈ ref.mentions, HasName i p) ∧ Stored a i ref ∧
    ∃ s, (∀ g, a'.shown tbl g = .str s) ∧ ∀ k, Ext i k → ref.text tbl k = .ok s

theorem ArgDone.later {tbl a ref h i a' h' i'} (s : Stays h h') (e : Ext i i') (hd : ArgDone tbl a ref h i a') :
    ArgDone tbl a ref h' i' a' := by
  obtain ⟨h1, h2, h3, t, h4, h5⟩ := hd
  exact ⟨h1.later s e, fun p hp => (h2 p hp).later e, (stored_later e h2).2 h3, t, h4, fun k hk => h5 k (e.trans hk)⟩

/-- The argument is as it was, or done. -/
def ArgOk (tbl : Nat → Bool) (a : Arg) (ref : Reference) (h : Heap) (i : Imports) (a' : Arg) : Prop :=
  a' = a ∨ ArgDone tbl a ref h i a'

theorem ArgOk.list {tbl : Nat → Bool} {a : Arg} {ref : Reference} (hv : ref.valid) {h : Heap} (hd : Denotes h a ref) :
    ∀ {l : List Arg} {n : Nat} {a' : Arg} {i j : Imports} {o l'}, Inv i → l[n]? = some a' → ArgOk tbl a ref h i a' →
      qualifyArgList h l i = (o, l', j) → ∃ a'', l'[n]? = some a'' ∧ ArgOk tbl a ref h j a''
  | [], n, a', i, j, o, l', _, hn, _, _ => by simp at hn
  | b :: l, n, a', i, j, o, l', inv, hn, hok, hx => by
    rw [qualifyArgList] at hx
    have hev := runs_qualifyArg h b i
    rcases hb : qualifyArg h b i with ⟨b' | _ | _, i1⟩ <;> rw [hb] at hx hev
    · rcases hl : qualifyArgList h l i1 with ⟨o', l1, i2⟩
      simp only [hl, Prod.mk.injEq] at hx
      obtain ⟨rfl, rfl, rfl⟩ := hx
      have hev2 := (evolves_qualifyArgList h l i1).1
      rw [hl] at hev2
      cases n with
      | zero =>
        simp only [List.getElem?_cons_zero, Option.some.injEq] at hn
        subst hn
        refine ⟨b', rfl, ?_⟩
        rcases hok with rfl | hdone
        · obtain ⟨a1, j1, g1, -, g3, g4⟩ := qualifyArg_denotes tbl inv hd hv
          rw [hb] at g1
          simp only [Prod.mk.injEq, Outcome.ok.injEq] at g1
          obtain ⟨rfl, rfl⟩ := g1
          by_cases hst : Stored b i1 ref
          · right
            exact ArgDone.later (.refl _) hev2.ext ⟨qualifyArg_settled hb, named_after hd hb, hst, g3 hst⟩
          · exact .inl (g4 hst)
        · rw [qualifyArg_of_settled hdone.1] at hb
          simp only [Prod.mk.injEq, Outcome.ok.injEq] at hb
          obtain ⟨rfl, rfl⟩ := hb
          exact .inr (hdone.later (.refl _) hev2.ext)
      | succ n =>
        simp only [List.getElem?_cons_succ] at hn ⊢
        exact ArgOk.list hv hd (hev.inv inv) hn (hok.imp id fun h => h.later (.refl _) hev.ext) hl
    all_goals
      simp only [Prod.mk.injEq] at hx
      obtain ⟨rfl, rfl, rfl⟩ := hx
      exact ⟨a', hn, hok.imp id fun h => h.later (.refl _) hev.ext⟩

theorem Denotes.files {h : Heap} {files : Ptr → Option GoFile}
    (hf : ∀ p, (files p).map (·.package) = (h.files p).map (·.package)) {a : Arg} {r : Reference} (hd : Denotes h a r) :
    Denotes { h with files } a r := by
  have file : ∀ {f : Ptr} {file : GoFile}, h.files f = some file → ∃ file', files f = some file' ∧
      (⟨file'.imports.pkgPath, file'.packageName⟩ : Package) = ⟨file.imports.pkgPath, file.packageName⟩ :=
    fun hg => files_samePackages hf _ _ hg
  cases hd with
  | value h1 h2 h3 h4 => obtain ⟨_, h5, h6⟩ := file h4; rw [← h6]; exact .value h1 h2 h3 h5
  | typeSpec h1 h2 h3 h4 => obtain ⟨_, h5, h6⟩ := file h4; rw [← h6]; exact .typeSpec h1 h2 h3 h5
  | func h1 h2 h3 h4 => obtain ⟨_, h5, h6⟩ := file h4; rw [← h6]; exact .func h1 h2 h3 h5
  | method h1 h2 h3 h4 => obtain ⟨_, h5, h6⟩ := file h4; rw [← h6]; exact .method h1 h2 h3 h5
  | ifaceMethod h1 h2 h3 h4 h5 h6 =>
    obtain ⟨_, h7, h8⟩ := file h6; rw [← h8]; exact .ifaceMethod h1 h2 h3 h4 h5 h7
  | package p => exact .package p
  | packagePtr p => exact .packagePtr p
  | symbol p => exact .symbol p
  | symbolPtr p => exact .symbolPtr p
  | mref p => exact .mref p
  | mrefPtr p => exact .mrefPtr p
  | typeName p => exact .typeName p
  | reflectType h1 => exact .reflectType h1
  | goType h1 => exact .goType h1
  | goSymbol h1 => exact .goSymbol h1
  | goMethod h1 => exact .goMethod h1
  | goPackage p text => exact .goPackage p text

theorem Denotes.later {h i h' i'} (s : Later h i h' i') {a : Arg} {r : Reference} (hd : Denotes h a r) : Denotes h' a r :=
  s.induct (P := fun h _ => Denotes h a r) (fun _ _ _ _ s hd => hd.step s) (fun _ _ _ hf hd => hd.files hf) hd

theorem HasLine.later {h i h' i'} (s : Later h i h' i') {e : FileElem} {q : Ptr} (hl : HasLine h e q) : HasLine h' e q := by
  refine s.induct (P := fun h _ => HasLine h e q) (fun h i h' i' s hl => ?_) (fun h i files hf hl => ?_) hl
  · have b1 := s.stays.valueDecls
    have b2 := s.stays.blocks
    cases hl with
    | @init p d c v b cb fmt q h1 h2 h3 h4 h5 h6 =>
      have : ∃ c', h'.values v = some c' ∧ c'.init = c.init := by
        cases s with
        | @value v' c' t t' j hc ht hq =>
          by_cases e : v = v'
          · subst e
            rw [h3] at hc
            cases hc
            exact ⟨_, upd_same .., rfl⟩
          · exact ⟨_, (upd_ne _ _ e).trans h3, rfl⟩
        | _ => exact ⟨_, h3, rfl⟩
      obtain ⟨c', g1, g2⟩ := this
      exact .init (b1 ▸ h1) h2 g1 (g2.trans h4) (b2 ▸ h5) h6
    | @func p f fmt q h1 h2 =>
      have : ∃ f', h'.funcs p = some f' ∧ f'.code = f.code := by
        cases s with
        | @func p' f' s j hc hq =>
          by_cases e : p = p'
          · subst e
            rw [h1] at hc
            cases hc
            exact ⟨_, upd_same .., rfl⟩
          · exact ⟨_, (upd_ne _ _ e).trans h1, rfl⟩
        | _ => exact ⟨_, h1, rfl⟩
      obtain ⟨f', g1, g2⟩ := this
      exact .func g1 (g2 ▸ h2)
  · cases hl with
    | init h1 h2 h3 h4 h5 h6 => exact .init h1 h2 h3 h4 h5 h6
    | func h1 h2 => exact .func h1 h2

theorem ElemSettled.line {fuel h i e q} (hs : ElemSettled fuel h i e) (hl : HasLine h e q) :
    ∃ l, h.args q = some l ∧ ∀ a ∈ l, ArgSettled h i a := by
  cases hl with
  | init h1 h2 h3 h4 h5 h6 =>
    obtain ⟨d, g1, g2⟩ := hs
    rw [h1] at g1
    cases g1
    obtain ⟨c, k1, -, -, k2⟩ := g2 _ h2
    rw [h3] at k1
    cases k1
    obtain ⟨cb, m1, m2⟩ := k2 _ h4
    rw [h5] at m1
    cases m1
    exact m2 _ h6
  | func h1 h2 =>
    obtain ⟨f, g1, -, g2⟩ := hs
    rw [h1] at g1
    cases g1
    exact g2 _ h2

/-- What becomes of an argument that stands for a reference. -/
theorem arg_later (tbl : Nat → Bool) {h i h' i'} (s : Later h i h' i') (inv : Inv i) {q : Ptr} {l : List Arg} {n : Nat} {a : Arg}
    {ref : Reference} (hq : h.args q = some l) (hn : l[n]? = some a) (hd : Denotes h a ref) (hv : ref.valid) :
    ∃ l' a', h'.args q = some l' ∧ l'[n]? = some a' ∧ ArgOk tbl a ref h' i' a' := by
  refine (s.induct (P := fun h' i' => Inv i' ∧ Denotes h' a ref ∧
    ∃ l' a', h'.args q = some l' ∧ l'[n]? = some a' ∧ ArgOk tbl a ref h' i' a') ?_ ?_ ⟨inv, hd, l, a, hq, hn, .inl rfl⟩).2.2
  · rintro h i h' i' s ⟨inv, hd, l', a', h1, h2, h3⟩
    refine ⟨s.evolves.inv inv, hd.step s, ?_⟩
    have keep : ∀ a', ArgOk tbl a ref h i' a' → ArgOk tbl a ref h' i' a' :=
      fun a' => Or.imp id fun h => h.later s.stays (.refl _)
    have h3' : ArgOk tbl a ref h i' a' := h3.imp id fun h => h.later (.refl _) s.ext
    cases s with
    | @args p l1 l2 o _ g1 g2 =>
      by_cases e : q = p
      · subst e
        rw [h1] at g1
        cases g1
        obtain ⟨a'', k1, k2⟩ := ArgOk.list hv hd inv h2 h3 g2
        exact ⟨l2, a'', upd_same .., k1, keep _ k2⟩
      · exact ⟨l', a', (upd_ne _ _ e).trans h1, h2, keep _ h3'⟩
    | _ => exact ⟨l', a', h1, h2, keep _ h3'⟩
  · rintro h i files hf ⟨inv, hd, l', a', h1, h2, h3⟩
    exact ⟨inv, hd.files hf, l', a', h1, h2, h3.imp id fun h => h.later (Later.file (.refl _ i) hf).stays (.refl _)⟩

/-- C33 for files: what becomes of the arguments of lines in a file that was written. An argument that stands for a
reference is shown as the text of the reference with the names in the file's imports if it is `Stored`, and as it was
otherwise; either way its packages have names in the file. -/
theorem C33_file_partial {env : Env} {fuel : Nat} {p : Ptr} {h h' : Heap} {f f' : GoFile} {text : GoString}
    (hf : h.files p = some f) (hi : Reachable f.imports) (hr : renderFile env fuel p h = (.ok text, h'))
    (hf' : h'.files p = some f') {e : FileElem} (he : e ∈ f.elements) {q : Ptr} (hl : HasLine h e q) {l : List Arg} {n : Nat}
    {a : Arg} {ref : Reference} (hq : h.args q = some l) (hn : l[n]? = some a) (hd : Denotes h a ref) (hv : ref.valid) :
    ∃ l' a', h'.args q = some l' ∧ l'[n]? = some a' ∧ (∀ p ∈ ref.mentions, HasName f'.imports p) ∧
      (Stored a f'.imports ref → ∃ s, (∀ g, a'.shown env.isPrint g = .str s) ∧ ref.text env.isPrint f'.imports = .ok s) ∧
      (¬ Stored a f'.imports ref → a' = a) := by
  obtain ⟨g, g', h1, h2, h3, h4, h5⟩ := qualifyFile_settled (qualifyFile_of_renderFile hr)
  rw [hf] at h1
  rw [hf'] at h2
  obtain rfl := Option.some.inj h1
  obtain rfl := Option.some.inj h2
  obtain ⟨l', a', k1, k2, k3⟩ := arg_later env.isPrint h5 hi.inv hq hn hd hv
  obtain ⟨l1, k4, k5⟩ := (h4 e (by rw [h3]; exact he)).line (hl.later h5)
  rw [k1] at k4
  cases k4
  refine ⟨l', a', k1, k2, ?_⟩
  rcases k3 with rfl | ⟨m1, m2, m3, s, m4, m5⟩
  · have hs := qualifyArg_of_settled (k5 a' (List.mem_of_getElem? k2))
    have hd' := hd.later h5
    obtain ⟨a1, j, g1, -, g3, g4⟩ := qualifyArg_denotes env.isPrint (h5.inv hi.inv) hd' hv
    rw [hs] at g1
    cases g1
    refine ⟨named_after hd' hs, fun hst => ?_, fun _ => rfl⟩
    obtain ⟨s, t1, t2⟩ := g3 hst
    exact ⟨s, t1, t2 _ (.refl _)⟩
  · exact ⟨m2, fun _ => ⟨s, m4, m5 _ (.refl _)⟩, fun h => absurd m3 h⟩

/-- The names that imports bind are identifiers. -/
theorem binds_ident {realName : GoString → GoString} {i : Imports} (inv : Inv i) (htn : TrueNames realName i)
    (hid : IdentNames i) (hne : [] ∉ i.importedPaths) : ∀ s ∈ i.importSpecs, isIdent (s.binds realName) = true := by
  intro s hs
  obtain ⟨d, hd, hb⟩ := binds_of_trueNames inv htn s hs
  rw [hb]
  refine (hid _ _ hd).resolve_right fun h => hne ?_
  rw [← h.1]
  exact (mem_importPaths _ _).2 (by rw [hd]; simp)

/-- C66 for the lines of files: in a file that was written, with truthful package names that are identifiers, every argument
of a line of code that stands for a reference is shown as a text that, in the scope of the import statements of the file,
refers to what the reference stood for before anything was qualified, if and only if the reference is what is written and
nothing in it is hidden. What is missing from the full property: see `C66_code_iff_partial`. -/
theorem C66_file_iff_partial {realName : GoString → GoString} {decls : List GoString} {env : Env} {fuel : Nat} {p : Ptr}
    {h h' : Heap} {f f' : GoFile} {text : GoString} (hf : h.files p = some f) (ht : TruthfulInput realName h f)
    (hi : NameableInput h f) (hr : renderFile env fuel p h = (.ok text, h')) (hf' : h'.files p = some f')
    (hne : [] ∉ f'.imports.importedPaths) {e : FileElem} (he : e ∈ f.elements) {q : Ptr} (hl : HasLine h e q) {l : List Arg}
    {n : Nat} {a : Arg} {ref : Reference} (hq : h.args q = some l) (hn : l[n]? = some a) (hd : Denotes h a ref)
    (hv : ref.valid) (hw : ref.wellNamed = true) (ha : ∀ o text, a ≠ .goObject o text) :
    ∃ l' a', h'.args q = some l' ∧ l'[n]? = some a' ∧
      ((∃ s, a'.shown env.isPrint h' = .str s ∧ (f'.imports.scope decls realName).Means s ref) ↔
        Stored a f'.imports ref ∧ (f'.imports.scope decls realName).Visible ref) := by
  obtain ⟨history, hh, -⟩ := hi.history
  obtain ⟨l', a', h1, h2, h3, h4, h5⟩ := C33_file_partial hf ⟨_, _, hh⟩ hr hf' he hl hq hn hd hv
  refine ⟨l', a', h1, h2, ?_⟩
  obtain ⟨g, g', k1, k2, -, -, k5⟩ := qualifyFile_settled (qualifyFile_of_renderFile hr)
  rw [hf] at k1
  rw [hf'] at k2
  obtain rfl := Option.some.inj k1
  obtain rfl := Option.some.inj k2
  have hnc : NoCopyImported h f'.imports := .inr hne
  obtain ⟨inv', htn⟩ := ht.after hnc k5
  have hident := binds_ident inv' htn (k5.ident hi.state hnc.get).names hne
  obtain ⟨s, hs, hiff⟩ := text_means_iff env.isPrint (decls := decls) inv' htn h3 hv hw hident
  by_cases hst : Stored a f'.imports ref
  · obtain ⟨s', m1, m2⟩ := h4 hst
    rw [hs] at m2
    cases m2
    rw [← hiff]
    constructor
    · rintro ⟨s', h6, h7⟩
      rw [m1] at h6
      cases h6
      exact ⟨hst, h7⟩
    · exact fun hv => ⟨s, m1 h', hv.2⟩
  · rw [h5 hst]
    exact ⟨fun ⟨s', h7, h8⟩ => absurd h8 (unstored_not_means (hd.later k5) hw ha hst h7), fun h => absurd h.1 hst⟩

/-- C66 for the lines of files, by the import statements in the text itself, under the conditions of C56. -/
theorem C66_text_partial {realName : GoString → GoString} {decls : List GoString} {env : Env} {fuel : Nat} {p : Ptr}
    {h h' : Heap} {f f' : GoFile} {text : GoString} {Ms : List DeclMeaning} (hf : h.files p = some f)
    (ht : TruthfulInput realName h f) (hi : NameableInput h f) (hp : isIdent f.packageName = true)
    (hm : List.Forall₂ (Intends (packageScope f.imports.pkgPath decls) h) f.elements Ms)
    (hr : renderFile env fuel p h = (.ok text, h')) (hc : ∀ e ∈ f.elements, CodeReads env h' e) (hf' : h'.files p = some f')
    (hne : [] ∉ f'.imports.importedPaths) :
    ∃ src, parseGoFile text = some src ∧
      (src.Unshadowed decls realName → src.meaning f.imports.pkgPath decls realName = some Ms) ∧
      ∀ e ∈ f.elements, ∀ q (l : List Arg) (n : Nat) a ref, HasLine h e q → h.args q = some l → l[n]? = some a → Denotes h a ref →
        ref.valid → ref.wellNamed = true → (∀ o text, a ≠ .goObject o text) →
        ∃ l' a', h'.args q = some l' ∧ l'[n]? = some a' ∧
          ((∃ s, a'.shown env.isPrint h' = .str s ∧ (src.scope f.imports.pkgPath decls realName).Means s ref) ↔
            Stored a f'.imports ref ∧ (src.scope f.imports.pkgPath decls realName).Visible ref) := by
  obtain ⟨-, ⟨n, is, ds⟩, h1, h2, h3, h4⟩ := written_file_meaning (.inr hne) hf hf' ht hi hp hm hr hc
  refine ⟨_, h1, h4, fun e he q l m a ref hl hq hn hd hv hw ha => ?_⟩
  obtain ⟨l', a', g1, g2, g3⟩ := C66_file_iff_partial (decls := decls) hf ht hi hr hf' hne he hl hq hn hd hv hw ha
  obtain ⟨g, g', k1, k2, -, -, k5⟩ := qualifyFile_settled (qualifyFile_of_renderFile hr)
  rw [hf] at k1
  rw [hf'] at k2
  obtain rfl := Option.some.inj k1
  obtain rfl := Option.some.inj k2
  dsimp only at h3
  subst h3
  refine ⟨l', a', g1, g2, ?_⟩
  rw [← k5.ext.own, scope_syn]
  exact g3

/-! ### An example -/

/-- A file with two functions; the first calls functions of two packages that are both called `q`, and the second. -/
def exCalls : Heap where
  files p := if p = 0 then some { name := b! "p.go", packageName := b! "p", imports := newImportsFor (b! "x/p")
                                  elements := [.func 1, .func 2] } else none
  funcs p := if p = 1 then some { name := b! "F", parent := some 0, code := [.line (b! "%s(%s(%s))\n") 3] }
    else if p = 2 then some { name := b! "G", parent := some 0 } else none
  args p := if p = 3 then some [.symbol ⟨⟨b! "x/q", b! "q"⟩, b! "A"⟩, .symbol ⟨⟨b! "y/q", b! "q"⟩, b! "B"⟩, .func 2] else none

example : (renderFile exEnv 3 0 exCalls).1 =
    .ok (b! "package p\n\nimport \"x/q\"\nimport q1 \"y/q\"\n\nfunc F() {\nq.A(q1.B(G))\n}\n\nfunc G() {\n}\n") := by
  decide +kernel

theorem exCalls_mentioned {pk : Package} (hm : Mentioned exCalls pk) :
    pk = ⟨b! "x/q", b! "q"⟩ ∨ pk = ⟨b! "y/q", b! "q"⟩ ∨ pk = ⟨b! "x/p", b! "p"⟩ := by
  cases hm with
  | file h =>
    simp only [exCalls] at h
    split at h
    · cases h; decide
    · simp at h
  | func h h2 =>
    simp only [exCalls] at h
    split at h
    · cases h; revert h2; simp [Signature.symbols, symbolsArgs]
    · split at h
      · cases h; revert h2; simp [Signature.symbols, symbolsArgs]
      · simp at h
  | arg h h2 h3 =>
    simp only [exCalls] at h
    split at h
    · cases h
      simp only [List.mem_cons, List.not_mem_nil, or_false] at h2
      rcases h2 with rfl | rfl | rfl
      · exact .inl (List.mem_singleton.1 h3)
      · exact .inr (.inl (List.mem_singleton.1 h3))
      · simp [Arg.packages] at h3
    · simp at h
  | value h => simp [exCalls] at h
  | type h => simp [exCalls] at h
  | field h => simp [exCalls] at h
  | embed h => simp [exCalls] at h
  | method h => simp [exCalls] at h
  | templ h => simp [exCalls] at h

/-- In the file that is written, the second argument refers to `B` of y/q, and the third to `G` of the package itself. -/
example : ∃ l', (renderFile exEnv 3 0 exCalls).2.args 3 = some l' ∧ ∀ n ∈ [1, 2], ∃ a' s i, l'[n]? = some a' ∧
    a'.shown exEnv.isPrint (renderFile exEnv 3 0 exCalls).2 = .str s ∧
    ((renderFile exEnv 3 0 exCalls).2.files 0).map (·.imports) = some i ∧
    (i.scope [b! "F", b! "G"] exRealName).Means s
      (if n = 1 then .symbol ⟨⟨b! "y/q", b! "q"⟩, b! "B"⟩ else .symbol ⟨⟨b! "x/p", b! "p"⟩, b! "G"⟩) := by
  let f : GoFile := { name := b! "p.go", packageName := b! "p", imports := newImportsFor (b! "x/p")
                      elements := [.func 1, .func 2] }
  have ht : TruthfulInput exRealName exCalls f := by
    refine ⟨⟨[], rfl, by simp⟩, fun pk hm => ?_⟩
    rcases exCalls_mentioned hm with rfl | rfl | rfl <;> decide
  have hi : NameableInput exCalls f := by
    refine ⟨⟨[], rfl, by simp⟩, fun pk hm => ?_⟩
    rcases exCalls_mentioned hm with rfl | rfl | rfl <;> decide
  obtain ⟨l0, hl0⟩ : ∃ l', (renderFile exEnv 3 0 exCalls).2.args 3 = some l' := ⟨_, rfl⟩
  obtain ⟨f', hf'⟩ : ∃ f', (renderFile exEnv 3 0 exCalls).2.files 0 = some f' := ⟨_, rfl⟩
  have e1 : (renderFile exEnv 3 0 exCalls).1 = .ok (b! "package p\n\nimport \"x/q\"\nimport q1 \"y/q\"\n\nfunc F() {\nq.A(q1.B(G))\n}\n\nfunc G() {\n}\n") := by
    decide +kernel
  have hp : f'.imports.importSpecs = [⟨[], b! "x/q"⟩, ⟨b! "q1", b! "y/q"⟩] ∧ f'.imports.pkgPath = b! "x/p" := by
    have : ((renderFile exEnv 3 0 exCalls).2.files 0).map (fun f => (f.imports.importSpecs, f.imports.pkgPath)) =
      some ([⟨[], b! "x/q"⟩, ⟨b! "q1", b! "y/q"⟩], b! "x/p") := by decide +kernel
    rw [hf'] at this
    simpa using this
  have hsc : f'.imports.scope [b! "F", b! "G"] exRealName =
      ⟨b! "x/p", [b! "F", b! "G"], [⟨[], b! "x/q"⟩, ⟨b! "q1", b! "y/q"⟩], exRealName⟩ := by
    rw [Imports.scope, hp.1, hp.2]
  refine ⟨l0, hl0, fun n hn => ?_⟩
  have key := fun {n : Nat} {a : Arg} {ref : Reference} => C66_file_iff_partial (decls := [b! "F", b! "G"]) (fuel := 3)
    (env := exEnv) (p := 0) (h := exCalls) (f := f) (f' := f') rfl ht hi (by rw [← e1]) hf'
    (by rw [Imports.importedPaths, hp.1]; decide) (e := .func 1) (by simp [f]) (q := 3) (.func rfl (List.mem_singleton.2 rfl))
    rfl (n := n) (a := a) (ref := ref)
  simp only [List.mem_cons, List.not_mem_nil, or_false] at hn
  rcases hn with rfl | rfl
  · obtain ⟨l', a', h1, h2, h3⟩ := key (n := 1) rfl (.symbol _) trivial (by decide) (by simp)
    rw [hl0] at h1
    cases h1
    obtain ⟨s, h4, h5⟩ := h3.2 ⟨trivial, by rw [hsc]; exact reaches_other (by decide) (by decide)⟩
    exact ⟨a', s, f'.imports, h2, h4, by rw [hf']; rfl, h5⟩
  · obtain ⟨l', a', h1, h2, h3⟩ := key (n := 2) rfl (.func rfl rfl rfl rfl) trivial (by decide) (by simp)
    rw [hl0] at h1
    cases h1
    obtain ⟨s, h4, h5⟩ := h3.2 ⟨trivial, by
      rw [hsc]
      exact ⟨fun _ _ => by decide, fun h => absurd h (by decide), fun _ => by decide⟩⟩
    exact ⟨a', s, f'.imports, h2, h4, by rw [hf']; rfl, h5⟩

end Gopoet
