import Verif.Proof.FileDecls
import Verif.Proof.LexAppend
import Verif.Props.TemplateText
import Verif.Spec.TemplateWhole
/-! Lemmas for files that are written by a template alone. -/

namespace Gopoet
open Imports

/-! ### Tokens -/

theorem lexFuel_mono : ∀ {f g : Nat} {s : GoString} {ts : List Tok}, lexFuel f s = some ts → f ≤ g → lexFuel g s = some ts
  | 0, _, [], ts, h, _ => by cases h; rw [lexFuel]
  | _ + 1, _, [], ts, h, _ => by cases h; rw [lexFuel]
  | 0, _, _ :: _, ts, h, _ => by cases h
  | f + 1, g, b :: s, ts, h, hg => by
    obtain ⟨g, rfl⟩ : ∃ k, g = k + 1 := ⟨g - 1, by omega⟩
    rw [lexFuel_step, Option.bind_eq_some_iff] at h
    obtain ⟨x, h1, h2⟩ := h
    obtain ⟨ts', h3, rfl⟩ := Option.map_eq_some_iff.1 h2
    rw [lexFuel_step, h1, Option.bind_some, lexFuel_mono h3 (by omega)]
    rfl

theorem Lex.of_lex {s : GoString} {ts : List Tok} (h : Gopoet.lex s = some ts) : Lex s ts := fun _ hf => lexFuel_mono h hf

/-- The name in an import statement is one that it can have. -/
def ImportSpec.nameable (s : ImportSpec) : Prop := s.packageAlias = [] ∨ isIdent s.packageAlias = true

/-- The tokens of an import spec. -/
def ImportSpec.toks (s : ImportSpec) : List Tok :=
  if s.packageAlias = [] then [.str s.importPath] else [.ident s.packageAlias, .str s.importPath]

theorem lex_spec {tbl : Nat → Bool} {s : ImportSpec} (h : s.nameable) : LexAs (s.string tbl) s.toks := by
  rw [ImportSpec.string, ImportSpec.toks]
  by_cases h0 : s.packageAlias = []
  · rw [if_pos h0, if_pos h0]
    exact lexAs_quote tbl _
  · rw [if_neg h0, if_neg h0]
    intro rest tl hd hr
    simp only [List.append_assoc]
    exact Lex.ident (h.resolve_left h0) (delim_cons (by decide)) (Lex.space (lexAs_quote tbl _ _ _ hd hr))

theorem parse_spec {s : ImportSpec} (rest : List Tok) :
    parseImportSpec (s.toks ++ rest) = some (s.syn, rest) := by
  rw [ImportSpec.toks]
  split <;> rename_i h0 <;> simp [parseImportSpec, ImportSpec.syn, optName, h0]

/-- The lines of an import declaration in parentheses. -/
def importLines (tbl : Nat → Bool) (specs : List ImportSpec) : GoString :=
  specs.flatMap fun s => b! "\t" ++ s.string tbl ++ b! "\n"

theorem toks_importLines {tbl : Nat → Bool} : ∀ {l : List ImportSpec}, (∀ s ∈ l, s.nameable) →
    Toks false (importLines tbl l) (l.flatMap fun s => s.toks ++ [.semi])
  | [], _ => Toks.nil
  | s :: l, h => by
    simp only [importLines, List.flatMap_cons]
    refine Toks.append ?_ (toks_importLines fun x hx => h x (List.mem_cons_of_mem _ hx))
    refine ⟨s.toks ++ [.nl], ?_, ?_⟩
    · intro rest tl hr
      simp only [List.append_assoc]
      exact Lex.tab (lex_spec (h s List.mem_cons_self) _ _ (delim_cons (by decide)) hr.newline)
    · rw [ImportSpec.toks]
      split <;> rfl

theorem parse_specs : ∀ {l : List ImportSpec} {f : Nat} (rest : List Tok), l.length + 1 ≤ f →
    parseImportSpecs f ((l.flatMap fun s => s.toks ++ [.semi]) ++ .rparen :: rest) = some (l.map ImportSpec.syn, rest)
  | [], f, rest, hf => by
    obtain ⟨f, rfl⟩ : ∃ k, f = k + 1 := ⟨f - 1, by omega⟩
    simp [parseImportSpecs]
  | s :: l, f, rest, hf => by
    obtain ⟨f, rfl⟩ : ∃ k, f = k + 1 := ⟨f - 1, by omega⟩
    have e := parse_spec (s := s) (.semi :: ((l.flatMap fun s => s.toks ++ [.semi]) ++ .rparen :: rest))
    have ih := parse_specs (l := l) (f := f) rest (by simpa using hf)
    simp only [List.flatMap_cons, List.append_assoc, List.cons_append, List.nil_append, List.map_cons]
    unfold parseImportSpecs
    split
    · rename_i hh
      rw [ImportSpec.toks] at hh
      split at hh <;> simp at hh
    · rename_i hno _
      cases hno
      rw [e]
      simp [ih]
    · rename_i hh
      cases hh

theorem parse_imports {l : List ImportSpec} {f : Nat} {rest : List Tok} (hr : rest.head? ≠ some (.kw .kImport))
    (hf : l.length + 2 ≤ f) :
    parseImports f (.kw .kImport :: .lparen :: ((l.flatMap fun s => s.toks ++ [.semi]) ++ .rparen :: .semi :: rest)) =
      some (l.map ImportSpec.syn, rest) := by
  obtain ⟨f, rfl⟩ : ∃ k, f = k + 1 := ⟨f - 1, by omega⟩
  have e : parseImports f rest = some ([], rest) := by
    unfold parseImports
    split <;> simp_all
  rw [parseImports.eq_def]
  dsimp only
  rw [parse_specs (l := l) (f := f) (.semi :: rest) (by omega)]
  simp [e]

/-- The text of the whole file. -/
def wholeText (tbl : Nat → Bool) (name : GoString) (specs : List ImportSpec) (body : GoString) : GoString :=
  b! "package " ++ name ++ b! "\n\nimport (\n" ++ importLines tbl specs ++ b! ")\n\n" ++ body

theorem whole_parses {tbl : Nat → Bool} {name : GoString} {specs : List ImportSpec} {body : GoString} {ds : List DeclSyn}
    (hn : isIdent name = true) (hs : ∀ s ∈ specs, s.nameable) (hb : parseDeclarations body = some ds) :
    parseGoFile (wholeText tbl name specs body) = some ⟨name, specs.map ImportSpec.syn, ds⟩ := by
  rw [parseDeclarations, Option.bind_eq_bind, Option.bind_eq_some_iff] at hb
  obtain ⟨ts, h1, h2⟩ := hb
  obtain ⟨ls, l1, l2⟩ := toks_importLines (tbl := tbl) hs
  have hl : lex (wholeText tbl name specs body) =
      some ([.kw .kPackage, .ident name, .nl, .nl, .kw .kImport, .lparen, .nl] ++ ls ++ [.rparen, .nl, .nl] ++ ts) := by
    refine Lex.lex ?_
    simp only [wholeText, List.append_assoc]
    refine Lex.kw (w := b! "package") (by decide) (delim_cons (by decide)) (Lex.space
      (Lex.ident hn (delim_cons (by decide)) (Lex.newline (Lex.newline (Lex.kw (w := b! "import") (by decide) (delim_cons (by decide))
        (Lex.space (Lex.punct' (by decide) (Lex.newline (l1 _ _ (Lex.punct' (by decide) (Lex.newline (Lex.newline (Lex.of_lex h1))))))))))))) 
  have hd : (insertSemis ts).head? ≠ some (.kw .kImport) := by
    intro e
    cases hi : insertSemis ts with
    | nil => simp [hi] at e
    | cons x l =>
      simp only [hi, List.head?_cons, Option.some.injEq] at e
      subst e
      rw [hi] at h2
      simp [parseDecls, parseDecl] at h2
  have hsemi : insertSemis ([.kw .kPackage, .ident name, .nl, .nl, .kw .kImport, .lparen, .nl] ++ ls ++ [.rparen, .nl, .nl] ++ ts) =
      .kw .kPackage :: .ident name :: .semi :: .kw .kImport :: .lparen ::
        ((specs.flatMap fun s => s.toks ++ [.semi]) ++ .rparen :: .semi :: insertSemis ts) := by
    have e1 : semiStep false [.kw .kPackage, .ident name, .nl, .nl, .kw .kImport, .lparen, .nl] =
      ([.kw .kPackage, .ident name, .semi, .kw .kImport, .lparen], false) := rfl
    have e2 : semiStep false [.rparen, .nl, .nl] = ([.rparen, .semi], false) := rfl
    simp only [insertSemis, semiStep_append, e1, l2, e2]
    split <;> simp
  rw [parseGoFile, hl]
  simp only [Option.bind_eq_bind, Option.bind_some, hsemi]
  rw [parse_imports hd (by
    have : specs.length ≤ (specs.flatMap fun s => s.toks ++ [.semi]).length := by
      rw [List.length_flatMap]
      clear hs hd hsemi hl l1 l2
      induction specs with
      | nil => exact Nat.zero_le _
      | cons s l ih =>
        have : 1 ≤ (s.toks ++ [Tok.semi]).length := by simp
        rw [List.map_cons, List.sum_cons, List.length_cons]
        omega
    simp only [List.length_cons, List.length_append]
    omega)]
  simp [h2]

/-! ### The values that are shown -/

section
variable {sc : Scalars} {h : Heap} {j : Imports}

mutual
theorem shows_ok : ∀ (t : TNode) {σ : TScope}, ScopeOk h j σ → ∀ x ∈ t.shows sc σ,
    x.2.validTypes = true ∧ ∀ p ∈ x.2.mentions h, HasName j p
  | .text s, σ, _, x, hx => by rw [TNode.shows] at hx; cases hx
  | .size _, σ, _, x, hx => by rw [TNode.shows] at hx; cases hx
  | .show path, σ, ho, x, hx => by
    rw [TNode.shows, Option.mem_toList] at hx
    exact ho.get hx
  | .define path rest, σ, ho, x, hx => by
    rw [TNode.shows] at hx
    split at hx
    · rename_i h1
      exact showsNodes_ok rest (ho.push (ho.get h1)) x hx
    · cases hx
  | .range path body other, σ, ho, x, hx => by
    rw [TNode.shows] at hx
    split at hx
    · rename_i y h1
      obtain ⟨⟨a, w⟩, h2, h3⟩ := Option.bind_eq_some_iff.1 h1
      split at hx
      · exact showsNodes_ok other ho x hx
      · obtain ⟨e, he, hx⟩ := List.mem_flatMap.1 hx
        have ho' := ho.get h2
        have hx' := part_items sc h h3 he
        exact showsNodes_ok body (ho.iterate (x := (y.1, e.2)) (y := (false, e.1))
          ⟨hx'.2.1 ho'.1, fun p hp => ho'.2 p (hx'.2.2 p hp)⟩ ⟨hx'.1.1 ho'.1, fun p hp => ho'.2 p (hx'.1.2 p hp)⟩) x hx
    · cases hx
  | .when path body other, σ, ho, x, hx => by
    rw [TNode.shows] at hx
    split at hx
    · rename_i h1
      split at hx
      · exact showsNodes_ok body (ho.push (ho.get h1)) x hx
      · exact showsNodes_ok other (ho.push (ho.get h1)) x hx
    · cases hx
  | .with path body other, σ, ho, x, hx => by
    rw [TNode.shows] at hx
    split at hx
    · rename_i h1
      split at hx
      · exact showsNodes_ok body (ho.enter (ho.get h1)) x hx
      · exact showsNodes_ok other (ho.push (ho.get h1)) x hx
    · cases hx
  | .test cond body other, σ, ho, x, hx => by
    rw [TNode.shows] at hx
    split at hx
    · split at hx
      · exact showsNodes_ok body ho x hx
      · exact showsNodes_ok other ho x hx
    · cases hx
  | .call path body, σ, ho, x, hx => by
    rw [TNode.shows] at hx
    split at hx
    · rename_i y h1
      refine showsNodes_ok body (σ := ⟨y, [y]⟩) (fun z hz => ?_) x hx
      simp only [List.mem_cons, List.not_mem_nil, or_false, or_self] at hz
      rw [hz]
      exact ho.get h1
    · cases hx
theorem showsNodes_ok : ∀ (ts : List TNode) {σ : TScope}, ScopeOk h j σ → ∀ x ∈ showsNodes sc ts σ,
    x.2.validTypes = true ∧ ∀ p ∈ x.2.mentions h, HasName j p
  | [], σ, _, x, hx => by rw [showsNodes] at hx; cases hx
  | t :: ts, σ, ho, x, hx => by
    rw [showsNodes] at hx
    rcases List.mem_append.1 hx with hx | hx
    · exact shows_ok t ho x hx
    · exact showsNodes_ok ts ho x hx
end
end

/-! ### What the template writes -/

theorem whole_executes {tbl : Nat → Bool} {own : TVal → Shown} {sc : Scalars} {h : Heap} {id : GoString → Nat} {name : GoString}
    {specs : List ImportSpec} {t : List TNode} {data : TVal} {s : GoString}
    (hown : ∀ s ∈ specs, own (s.value id) = .str (s.string tbl)) (hs : execute tbl own sc h t data = some s) :
    execute tbl own sc h (wholeFile name t) (wholeData id specs data) = some (wholeText tbl name specs s) := by
  have loop : ∀ (vars : List (Bool × TVal)) (n : Nat) (l : List ImportSpec), (∀ s ∈ l, own (s.value id) = .str (s.string tbl)) →
      joinAll (fun e => runNodes sc (fun a v => (v.shown tbl own h a).text)
        [.text (b! "\t"), .show ⟨none, []⟩, .text (b! "\n")] ⟨(true, e.2), vars ++ [(false, e.1), (true, e.2)]⟩)
        (numberedFrom sc n (l.map (ImportSpec.value id))) = some (importLines tbl l) := by
    intro vars n l
    induction l generalizing n with
    | nil => intro _; rfl
    | cons s l ih =>
      intro hl
      have e := hl s List.mem_cons_self
      rw [ImportSpec.value] at e
      rw [List.map_cons, numberedFrom, joinAll, ih _ fun x hx => hl x (List.mem_cons_of_mem _ hx)]
      simp [runNodes, TNode.run, TScope.get, TVal.follow, ImportSpec.value, TVal.shown, TVal.indirect, e, Shown.text,
        importLines, List.flatMap_cons]
  have hr : TNode.run sc (fun a v => (v.shown tbl own h a).text)
      (.range ⟨none, [.field 0]⟩ [.text (b! "\t"), .show ⟨none, []⟩, .text (b! "\n")] []) (.start (wholeData id specs data)) =
      some (importLines tbl specs) := by
    have hl := loop (TScope.start (wholeData id specs data)).vars 0 specs hown
    have hg : (TScope.start (wholeData id specs data)).get ⟨none, [.field 0]⟩ =
      some (false, .slice (specs.map (ImportSpec.value id))) := rfl
    rw [TNode.run, hg]
    simp only [Option.bind_some, TVal.items, TVal.indirect]
    by_cases h0 : specs = []
    · subst h0; simp [numberedFrom, runNodes, importLines]
    · rw [if_neg ?_]
      · exact hl
      · cases specs with
        | nil => exact absurd rfl h0
        | cons s l => simp [numberedFrom]
  have hc : TNode.run sc (fun a v => (v.shown tbl own h a).text) (.call ⟨none, [.field 1]⟩ t) (.start (wholeData id specs data)) =
      some s := by
    rw [← hs]; rfl
  rw [execute, wholeFile, runNodes, runNodes, hr, runNodes, runNodes, hc, runNodes, TNode.run, TNode.run]
  simp only [wholeText, List.append_assoc, List.append_nil]

end Gopoet
