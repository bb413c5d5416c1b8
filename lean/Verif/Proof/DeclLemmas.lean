import Mathlib.Tactic.Tauto
import Verif.Spec.DeclSyntax
import Verif.Spec.Decls
import Verif.Proof.ParseLemmas
import Verif.Proof.RenderLemmas
import Verif.Proof.TextLemmas
import Verif.Proof.GoTypesLemmas
import Verif.Proof.NamedLemmas
/-! Declarations of types, read by the parser of `Verif.Spec.DeclSyntax`. -/

namespace Gopoet

/-! ### Semicolons -/

theorem semiStep_append : ∀ (b : Bool) (l r : List Tok),
    semiStep b (l ++ r) =
      ((semiStep b l).1 ++ (semiStep (semiStep b l).2 r).1, (semiStep (semiStep b l).2 r).2)
  | b, [], r => by simp [semiStep]
  | b, t :: l, r => by
    rw [List.cons_append]
    cases t <;> simp [semiStep, semiStep_append _ l r]

theorem semiStep_cons {b : Bool} {t : Tok} {r : List Tok} (h : t ≠ .nl) :
    semiStep b (t :: r) = (t :: (semiStep (endsStatement t) r).1, (semiStep (endsStatement t) r).2) := by
  cases t <;> first | rfl | exact absurd rfl h

theorem semiStep_noNl : ∀ {b : Bool} {l : List Tok}, .nl ∉ l → (semiStep b l).1 = l
  | _, [], _ => rfl
  | b, t :: l, h => by
    simp only [List.mem_cons, not_or] at h
    rw [semiStep_cons (fun e => h.1 e.symm)]
    simp [semiStep_noNl h.2]

/-- No line ends, and a semicolon is due after the last token. -/
def Closed (ts : List Tok) : Prop := .nl ∉ ts ∧ ∃ l x, ts = l ++ [x] ∧ endsStatement x = true

theorem Closed.semiStep {ts : List Tok} (h : Closed ts) (b : Bool) : semiStep b ts = (ts, true) := by
  obtain ⟨h, l, x, rfl, hx⟩ := h
  simp only [List.mem_append, List.mem_singleton, not_or] at h
  rw [semiStep_append, semiStep_noNl h.1, semiStep_cons (fun e => h.2 e.symm)]
  simp [Gopoet.semiStep, hx]

theorem Closed.append {l ts : List Tok} (hl : .nl ∉ l) (h : Closed ts) : Closed (l ++ ts) := by
  obtain ⟨h, l', x, rfl, hx⟩ := h
  refine ⟨?_, l ++ l', x, by simp, hx⟩
  simp only [List.mem_append] at h ⊢
  tauto

theorem Closed.cons {t : Tok} {ts : List Tok} (ht : t ≠ .nl) (h : Closed ts) : Closed (t :: ts) :=
  Closed.append (l := [t]) (by simpa using fun e : Tok.nl = t => ht e.symm) h

theorem closed_one {t : Tok} (h : endsStatement t = true) : Closed [t] :=
  ⟨by simp only [List.mem_singleton]; rintro rfl; simp [endsStatement] at h, [], t, rfl, h⟩

theorem closed_symbol (s : Symbol) : Closed s.toks := by
  rw [Symbol.toks]
  split
  · exact closed_one rfl
  · exact Closed.cons (by simp) (Closed.cons (by simp) (closed_one rfl))

theorem noNl_glue : ∀ (l r : List Tok), .nl ∉ l → .nl ∉ r → .nl ∉ glue l r
  | [], _, _, h => h
  | [x], r, h, h' => by
    have e : glue [x] r = x :: r ∨ ∃ w r', glue [x] r = wordTok w :: r' ∧ ∃ y, r = y :: r' := by
      cases r with
      | nil => cases x <;> exact Or.inl rfl
      | cons y r =>
        cases x <;> cases y <;> first
          | exact Or.inl rfl
          | exact Or.inr ⟨_, _, rfl, _, rfl⟩
    rcases e with e | ⟨w, r', e, y, rfl⟩
    · rw [e]; simp only [List.mem_cons, List.not_mem_nil, or_false] at h ⊢; simp [h, h']
    · rw [e]
      simp only [List.mem_cons, not_or] at h' ⊢
      refine ⟨?_, h'.2⟩
      rw [wordTok]; split <;> simp
  | x :: y :: l, r, h, h' => by
    rw [glue_cons]
    simp only [List.mem_cons, not_or] at h ⊢
    exact ⟨h.1, noNl_glue (y :: l) r (by simp [h.2.1, h.2.2]) h'⟩

mutual
theorem noNl_type : ∀ t : TypeName, .nl ∉ t.toks
  | .nil => by simp [TypeName.toks]
  | .basic _ => by simp [TypeName.toks]
  | .named s => (closed_symbol s).1
  | .ptr e => by simpa [TypeName.toks] using noNl_type e
  | .slice e => by simpa [TypeName.toks] using noNl_type e
  | .array e _ => by simpa [TypeName.toks] using noNl_type e
  | .map e k => by simpa [TypeName.toks] using ⟨noNl_type k, noNl_type e⟩
  | .chan e d => by
    rw [TypeName.toks]
    split
    · simpa using noNl_type e
    · split <;> simpa using noNl_type e
  | .func s => by simpa [TypeName.toks] using noNl_sig s
  | .struct fs => by simpa [TypeName.toks] using noNl_fields fs false
  | .interface ms es => by
    simpa [TypeName.toks] using noNl_glue _ _ (noNl_embeds es false) (noNl_methods ms false)
theorem noNl_sig : ∀ s : Signature, .nl ∉ s.toks
  | ⟨args, results, v⟩ => by
    have h1 := noNl_args args v (anyNamed args) false
    have h2 := noNl_args results false (anyNamed results) false
    rw [Signature.toks]
    split <;> simpa using ⟨h1, h2⟩
theorem noNl_args : ∀ (l : List ArgType) (v named sep : Bool), .nl ∉ toksArgs v named sep l
  | [], _, _, _ => by simp [toksArgs]
  | ⟨n, t⟩ :: l, v, named, sep => by
    have h1 := noNl_type t
    have h2 := noNl_args l v named true
    have h3 := noNl_elem t
    rw [toksArgs]
    simp only [List.mem_append, not_or]
    refine ⟨?_, ?_, ?_, h2⟩
    · split <;> simp
    · split <;> simp
    · split
      · simpa using h3
      · exact h1
theorem noNl_elem : ∀ t : TypeName, .nl ∉ toksElem t
  | .slice e => noNl_type e
  | .nil | .basic _ | .named _ | .ptr _ | .array _ _ | .map _ _ | .chan _ _ | .func _ | .struct _
  | .interface _ _ => by simp [toksElem]
theorem noNl_fields : ∀ (l : List FieldType) (sep : Bool), .nl ∉ toksFields sep l
  | [], _ => by simp [toksFields]
  | ⟨n, t, tag⟩ :: l, sep => by
    have h1 := noNl_type t
    have h2 := noNl_fields l true
    rw [toksFields]
    simp only [List.mem_append, not_or]
    refine ⟨?_, ?_, h1, ?_, h2⟩ <;> split <;> simp
theorem noNl_methods : ∀ (l : List MethodType) (sep : Bool), .nl ∉ toksMethods sep l
  | [], _ => by simp [toksMethods]
  | ⟨n, s⟩ :: l, sep => by
    have h1 := noNl_sig s
    have h2 := noNl_methods l true
    rw [toksMethods]
    simp only [List.mem_append, List.mem_cons, not_or]
    refine ⟨?_, by simp, h1, h2⟩
    split <;> simp
theorem noNl_embeds : ∀ (l : List Symbol) (sep : Bool), .nl ∉ toksEmbeds sep l
  | [], _ => by simp [toksEmbeds]
  | s :: l, sep => by
    have h2 := noNl_embeds l true
    rw [toksEmbeds]
    simp only [List.mem_append, not_or]
    refine ⟨?_, (closed_symbol s).1, h2⟩
    split <;> simp
end

mutual
theorem ends_type : ∀ {t : TypeName}, t.valid = true → ∃ l x, t.toks = l ++ [x] ∧ endsStatement x = true
  | .nil, h => by simp [TypeName.valid] at h
  | .basic _, _ => ⟨[], _, rfl, rfl⟩
  | .named s, _ => (closed_symbol s).2
  | .ptr e, h => by
    obtain ⟨l, x, hl, hx⟩ := ends_type (t := e) h
    exact ⟨.star :: l, x, by rw [TypeName.toks, hl]; rfl, hx⟩
  | .slice e, h => by
    obtain ⟨l, x, hl, hx⟩ := ends_type (t := e) h
    exact ⟨.lbrack :: .rbrack :: l, x, by rw [TypeName.toks, hl]; rfl, hx⟩
  | .array e n, h => by
    simp only [TypeName.valid, Bool.and_eq_true] at h
    obtain ⟨l, x, hl, hx⟩ := ends_type (t := e) h.1
    exact ⟨.lbrack :: .int n.toNat :: .rbrack :: l, x, by rw [TypeName.toks, hl]; rfl, hx⟩
  | .map e k, h => by
    simp only [TypeName.valid, Bool.and_eq_true] at h
    obtain ⟨l, x, hl, hx⟩ := ends_type (t := e) h.1
    exact ⟨.kw .kMap :: .lbrack :: (k.toks ++ .rbrack :: l), x, by rw [TypeName.toks, hl]; simp, hx⟩
  | .chan e d, h => by
    simp only [TypeName.valid, Bool.and_eq_true] at h
    obtain ⟨l, x, hl, hx⟩ := ends_type (t := e) h.1
    rw [TypeName.toks, hl]
    split
    · exact ⟨.arrow :: .kw .kChan :: l, x, rfl, hx⟩
    · split
      · exact ⟨.kw .kChan :: .arrow :: l, x, rfl, hx⟩
      · exact ⟨.kw .kChan :: l, x, rfl, hx⟩
  | .func s, h => by
    obtain ⟨l, x, hl, hx⟩ := ends_sig (s := s) h
    exact ⟨.kw .kFunc :: l, x, by rw [TypeName.toks, hl]; rfl, hx⟩
  | .struct fs, _ => ⟨.kw .kStruct :: .lbrace :: toksFields false fs, .rbrace, by
      simp [TypeName.toks], rfl⟩
  | .interface ms es, _ => ⟨.kw .kInterface :: .lbrace :: glue (toksEmbeds false es) (toksMethods false ms),
      .rbrace, by simp [TypeName.toks], rfl⟩
theorem ends_sig : ∀ {s : Signature}, s.valid = true → ∃ l x, s.toks = l ++ [x] ∧ endsStatement x = true
  | ⟨args, [], v⟩, _ =>
    ⟨.lparen :: toksArgs v (anyNamed args) false args, .rparen, by
      simp [Signature.toks, anyNamed, toksArgs], rfl⟩
  | ⟨args, [⟨n, t⟩], v⟩, h => by
    simp only [Signature.valid, validArgs, Bool.and_eq_true] at h
    obtain ⟨l, x, hl, hx⟩ := ends_type (t := t) h.1.2.1
    by_cases hn : n = []
    · refine ⟨.lparen :: (toksArgs v (anyNamed args) false args ++ .rparen :: l), x, ?_, hx⟩
      simp [Signature.toks, anyNamed, toksArgs, hl, hn]
    · refine ⟨.lparen :: (toksArgs v (anyNamed args) false args ++ .rparen :: .lparen ::
        toksArgs false true false [⟨n, t⟩]), .rparen, ?_, rfl⟩
      simp [Signature.toks, anyNamed, hn]
  | ⟨args, a :: b :: l, v⟩, _ => by
    refine ⟨.lparen :: (toksArgs v (anyNamed args) false args ++ .rparen :: .lparen ::
      toksArgs false (anyNamed (a :: b :: l)) false (a :: b :: l)), .rparen, ?_, rfl⟩
    simp [Signature.toks]
end

theorem closed_type {t : TypeName} (h : t.valid = true) : Closed t.toks := ⟨noNl_type t, ends_type h⟩

theorem closed_sig {s : Signature} (h : s.valid = true) : Closed s.toks := ⟨noNl_sig s, ends_sig h⟩

/-! ### Comments -/

theorem lexAny_append {a b : GoString} {x y : List Tok} (h : LexAny a x) (h' : LexAny b y) :
    LexAny (a ++ b) (x ++ y) := by
  intro rest tl hr
  rw [List.append_assoc, List.append_assoc]
  exact h _ _ (h' _ _ hr)

theorem lexAny_nil : LexAny [] [] := fun _ _ h => h

theorem lexAny_newline : LexAny (b! "\n") [.nl] := fun _ _ h => h.newline

theorem lexAny_line {s : GoString} {ts : List Tok} (h : LexAs s ts) :
    LexAny (s ++ b! "\n") (ts ++ [.nl]) := by
  intro rest tl hr
  rw [List.append_assoc, List.append_assoc]
  exact h _ _ (delim_cons (by decide)) hr.newline

theorem dropWhile_line {l rest : GoString} (h : (10 : UInt8) ∉ l) :
    (l ++ 10 :: rest).dropWhile (fun c => c != 10) = 10 :: rest := by
  induction l with
  | nil => rfl
  | cons c l ih =>
    simp only [List.mem_cons, not_or] at h
    rw [List.cons_append, List.dropWhile_cons_of_pos (by simpa using fun e => h.1 e.symm)]
    exact ih h.2

theorem lexAny_commentLine {l : GoString} (h : (10 : UInt8) ∉ l) :
    LexAny (b! "// " ++ l ++ b! "\n") [.nl] := by
  intro rest tl hr f hf
  have e : b! "// " ++ l ++ b! "\n" ++ rest = 47 :: 47 :: ((32 :: l) ++ 10 :: rest) := by
    simp
  rw [e] at hf ⊢
  cases f with
  | zero => simp at hf
  | succ f =>
    have := hr.newline f (by simp at hf ⊢; omega)
    rw [lexFuel]
    simp only [show ¬((47 : UInt8) = 32 ∨ (47 : UInt8) = 9 ∨ (47 : UInt8) = 13) by decide, if_false,
      show (47 : UInt8) ≠ 10 by decide, show isLetterByte 47 = false by decide,
      show isDigitByte 47 = false by decide, Bool.false_eq_true,
      show ¬((47 : UInt8) = 34 ∨ (47 : UInt8) = 96) by decide]
    simp only [punctStep]
    rw [dropWhile_line (by simp; exact h), this]
    rfl

theorem lexAny_comment (c : GoString) : ∃ n, LexAny (writeComment c) (List.replicate n .nl) := by
  rw [writeComment]
  split
  · have h := not_mem_splitOn newline c
    generalize splitOn newline c = ls at h
    induction ls with
    | nil => exact ⟨0, lexAny_nil⟩
    | cons l ls ih =>
      obtain ⟨n, hn⟩ := ih (fun p hp => h p (by simp [hp]))
      refine ⟨n + 1, ?_⟩
      rw [List.flatMap_cons, List.replicate_succ]
      exact lexAny_append (y := List.replicate n .nl) (lexAny_commentLine (h l (by simp))) hn
  · exact ⟨0, lexAny_nil⟩

theorem semiStep_nls (n : Nat) : semiStep false (List.replicate n .nl) = ([], false) := by
  induction n with
  | zero => rfl
  | succ n ih => rw [List.replicate_succ, semiStep, ih]; rfl

/-! ### Lines -/

/-- The text consists of whole lines with these tokens. -/
def Toks (b : Bool) (s : GoString) (ts : List Tok) : Prop :=
  ∃ ls, LexAny s ls ∧ semiStep b ls = (ts, false)

theorem Toks.append {b s ts s' ts'} (h : Toks b s ts) (h' : Toks false s' ts') :
    Toks b (s ++ s') (ts ++ ts') := by
  obtain ⟨ls, h1, h2⟩ := h
  obtain ⟨ls', h1', h2'⟩ := h'
  exact ⟨ls ++ ls', lexAny_append h1 h1', by rw [semiStep_append, h2, h2']⟩

theorem Toks.nil : Toks false [] [] := ⟨[], lexAny_nil, rfl⟩

theorem Toks.newline : Toks false (b! "\n") [] := ⟨[.nl], lexAny_newline, rfl⟩

theorem Toks.comment (c : GoString) : Toks false (writeComment c) [] := by
  obtain ⟨n, hn⟩ := lexAny_comment c
  exact ⟨_, hn, semiStep_nls n⟩

theorem Toks.line {s ts} (h : LexAs s ts) (hc : Closed ts) (b : Bool) :
    Toks b (s ++ b! "\n") (ts ++ [.semi]) :=
  ⟨_, lexAny_line h, by rw [semiStep_append, hc.semiStep]; rfl⟩

/-- Text before a piece on the same line. -/
theorem Toks.before {b s ts s' ts'} (h : LexAny s ts) (hb : semiStep b ts = (ts, b'))
    (h' : Toks b' s' ts') : Toks b (s ++ s') (ts ++ ts') := by
  obtain ⟨ls', h1', h2'⟩ := h'
  exact ⟨ts ++ ls', lexAny_append h h1', by rw [semiStep_append, hb, h2']⟩

/-- One line that `P` parses as `a`. -/
def Line {α} (P : Nat → List Tok → Option (α × List Tok)) (s : GoString) (a : α) : Prop :=
  ∃ ts, Toks false s (ts ++ [.semi]) ∧
    (∃ x l, ts = x :: l ∧ x ≠ .rbrace ∧ x ≠ .rparen) ∧
    ∀ f rest, 4 * ts.length ≤ f → P f (ts ++ .semi :: rest) = some (a, .semi :: rest)

theorem Line.comment {α} {P : Nat → List Tok → Option (α × List Tok)} {s a} (h : Line P s a)
    (c : GoString) : Line P (writeComment c ++ s) a := by
  obtain ⟨ts, h1, h2⟩ := h
  exact ⟨ts, (Toks.comment c).append h1, h2⟩

theorem Line.newline {α} {P : Nat → List Tok → Option (α × List Tok)} {s a} (h : Line P s a) :
    Line P (s ++ b! "\n") a := by
  obtain ⟨ts, h1, h2⟩ := h
  exact ⟨ts, by simpa using h1.append Toks.newline, h2⟩

/-- Lines that `Q` parses as `as`, up to and including the token `c`. -/
def Lines {α} (Q : Nat → List Tok → Option (α × List Tok)) (c : Tok) (s : GoString) (a : α) : Prop :=
  ∃ ts, Toks false s ts ∧ ∀ f rest, 4 * ts.length + 4 ≤ f → Q f (ts ++ c :: rest) = some (a, rest)

theorem Lines.cons {α β} {P : Nat → List Tok → Option (α × List Tok)}
    {Q : Nat → List Tok → Option (β × List Tok)} {c : Tok} {app : α → β → β} {s s' a l}
    (hc : c = .rbrace ∨ c = .rparen)
    (hQ : ∀ f toks a r, toks.head? ≠ some c → P f toks = some (a, .semi :: r) →
      Q (f + 1) toks = (Q f r).map fun x => (app a x.1, x.2))
    (h : Line P s a) (h' : Lines Q c s' l) : Lines Q c (s ++ s') (app a l) := by
  obtain ⟨ts, h1, ⟨x, l', rfl, hx1, hx2⟩, h3⟩ := h
  obtain ⟨ts', h1', h2'⟩ := h'
  refine ⟨_, h1.append h1', ?_⟩
  intro f rest hf
  simp only [List.length_append, List.length_cons, List.length_nil] at hf
  obtain ⟨f, rfl⟩ : ∃ g, f = g + 1 := ⟨f - 1, by omega⟩
  have := h3 f (ts' ++ c :: rest) (by simp; omega)
  rw [show (x :: l' ++ [Tok.semi] ++ ts') ++ c :: rest = x :: l' ++ .semi :: (ts' ++ c :: rest) by simp]
  rw [hQ _ _ _ _ (by rcases hc with rfl | rfl <;> simpa) this, h2' f rest (by omega)]
  rfl

theorem fields_cons {s s' : GoString} {g : GoField SynName} {l : List (GoField SynName)}
    (h : Line parseField s [g]) (h' : Lines parseFields .rbrace s' l) :
    Lines parseFields .rbrace (s ++ s') (g :: l) :=
  Lines.cons (app := fun a b => a ++ b) (Or.inl rfl) (by
    intro f toks a r hh hp
    rw [parseFields_step hh, hp]
    cases hq : parseFields f r <;> simp [hq]) h h'

theorem elems_cons {s s' : GoString} {g : GoElem SynName} {l : List (GoElem SynName)}
    (h : Line parseElem s g) (h' : Lines parseElems .rbrace s' l) :
    Lines parseElems .rbrace (s ++ s') (g :: l) :=
  Lines.cons (app := fun a b => a :: b) (Or.inl rfl) (by
    intro f toks a r hh hp
    rw [parseElems_step hh, hp]
    cases hq : parseElems f r <;> simp [hq]) h h'

theorem parseTypeSpecs_step {f : Nat} {toks : List Tok} (h : toks.head? ≠ some .rparen) :
    parseTypeSpecs (f + 1) toks = (do
      let (t, r) ← parseTypeSpec f toks
      match r with
      | .semi :: r => do let (ts, r) ← parseTypeSpecs f r; some (t :: ts, r)
      | .rparen :: r => some ([t], r)
      | _ => none) := by
  cases toks with
  | nil => rfl
  | cons x r => cases x <;> first | rfl | simp at h

theorem specs_cons {s s' : GoString} {g : DeclaredType} {l : List DeclaredType}
    (h : Line parseTypeSpec s g) (h' : Lines parseTypeSpecs .rparen s' l) :
    Lines parseTypeSpecs .rparen (s ++ s') (g :: l) :=
  Lines.cons (app := fun a b => a :: b) (Or.inr rfl) (by
    intro f toks a r hh hp
    rw [parseTypeSpecs_step hh, hp]
    cases hq : parseTypeSpecs f r <;> simp [hq]) h h'

theorem fields_nil : Lines parseFields .rbrace [] [] := ⟨[], Toks.nil, by
  intro f rest hf
  obtain ⟨f, rfl⟩ : ∃ g, f = g + 1 := ⟨f - 1, by omega⟩
  rfl⟩

theorem elems_nil : Lines parseElems .rbrace [] [] := ⟨[], Toks.nil, by
  intro f rest hf
  obtain ⟨f, rfl⟩ : ∃ g, f = g + 1 := ⟨f - 1, by omega⟩
  rfl⟩

theorem specs_nil : Lines parseTypeSpecs .rparen [] [] := ⟨[], Toks.nil, by
  intro f rest hf
  obtain ⟨f, rfl⟩ : ∃ g, f = g + 1 := ⟨f - 1, by omega⟩
  rfl⟩

/-! ### Types -/

/-- The tokens are a type. -/
def ParsesAs (ts : List Tok) (t : SynType) : Prop :=
  (∃ x l, ts = x :: l ∧ typeStart x = true) ∧
  ∀ f rest, 4 * ts.length ≤ f → Follow rest → parseType f (ts ++ rest) = some (t, rest)

/-- The text is a type on the rest of the line and, possibly, following lines. -/
def TypeText (s : GoString) (t : SynType) : Prop :=
  ∃ ts, (∀ b, Toks b s (ts ++ [.semi])) ∧ ParsesAs ts t

theorem parsesAs_type {t : TypeName} (h : t.onLine) : ParsesAs t.toks t.syntax :=
  ⟨toks_start h.1, fun _ _ hf hr => parse_type h.1 h.2.1 h.2.2 hf hr⟩

theorem typeText_line {tbl : Nat → Bool} {t : TypeName} (h : t.onLine) :
    ∃ s, typeNameToBuffer tbl t = .ok s ∧ TypeText (b! " " ++ s ++ b! "\n") t.syntax := by
  obtain ⟨s, hs, hl⟩ := render_type tbl h.1 h.2.1
  refine ⟨s, hs, t.toks, fun b => ?_, parsesAs_type h⟩
  refine Toks.line ?_ (closed_type h.1) b
  intro rest tl hd hr
  exact (hl rest tl hd hr).space

theorem typeText_struct {s : GoString} {l : List (GoField SynName)}
    (h : Lines parseFields .rbrace s l) :
    TypeText (b! " struct {\n" ++ s ++ b! "}\n") (.struct l) := by
  obtain ⟨ts, ⟨ls, h1, h2⟩, h3⟩ := h
  refine ⟨.kw .kStruct :: .lbrace :: (ts ++ [.rbrace]), fun b => ?_, ⟨_, _, rfl, rfl⟩, ?_⟩
  · refine ⟨.kw .kStruct :: .lbrace :: .nl :: (ls ++ [.rbrace, .nl]), ?_, ?_⟩
    · intro rest tl hr
      simp only [List.append_assoc, List.cons_append, List.nil_append]
      refine Lex.space (Lex.kw (w := b! "struct") (by decide) (delim_cons (by decide)) (Lex.space
        (Lex.punct' (by decide) (Lex.newline ?_))))
      exact h1 _ _ (Lex.punct' (by decide) hr.newline)
    · rw [semiStep_cons (by simp), semiStep_cons (by simp)]
      simp [semiStep, endsStatement, semiStep_append, h2]
  · intro f rest hf hr
    obtain ⟨f, rfl⟩ : ∃ g, f = g + 1 := ⟨f - 1, by simp at hf; omega⟩
    have := h3 f rest (by simp at hf; omega)
    simp only [List.cons_append, List.append_assoc, List.nil_append]
    rw [parseType]; simp only [this]; rfl

theorem typeText_iface {s : GoString} {l : List (GoElem SynName)}
    (h : Lines parseElems .rbrace s l) :
    TypeText (b! " interface {\n" ++ s ++ b! "}\n") (.iface l) := by
  obtain ⟨ts, ⟨ls, h1, h2⟩, h3⟩ := h
  refine ⟨.kw .kInterface :: .lbrace :: (ts ++ [.rbrace]), fun b => ?_, ⟨_, _, rfl, rfl⟩, ?_⟩
  · refine ⟨.kw .kInterface :: .lbrace :: .nl :: (ls ++ [.rbrace, .nl]), ?_, ?_⟩
    · intro rest tl hr
      simp only [List.append_assoc, List.cons_append, List.nil_append]
      refine Lex.space (Lex.kw (w := b! "interface") (by decide) (delim_cons (by decide)) (Lex.space
        (Lex.punct' (by decide) (Lex.newline ?_))))
      exact h1 _ _ (Lex.punct' (by decide) hr.newline)
    · rw [semiStep_cons (by simp), semiStep_cons (by simp)]
      simp [semiStep, endsStatement, semiStep_append, h2]
  · intro f rest hf hr
    obtain ⟨f, rfl⟩ : ∃ g, f = g + 1 := ⟨f - 1, by simp at hf; omega⟩
    have := h3 f rest (by simp at hf; omega)
    simp only [List.cons_append, List.append_assoc, List.nil_append]
    rw [parseType]; simp only [this]; rfl

/-! ### Fields and interface elements -/

theorem lexAs_tag (tbl : Nat → Bool) (tag : GoString) :
    LexAs (fieldTagText tbl tag) (if tag = [] then [] else [.str tag]) := by
  rw [fieldTagText]
  by_cases h0 : tag = []
  · simpa [h0] using LexAs.nil
  · simp only [h0, ne_eq, not_false_iff, if_true, if_false]
    intro rest tl _ hr
    exact (lexAny_tag tbl tag rest tl hr).space

theorem delim_tag (tbl : Nat → Bool) (tag rest : GoString) (h : Delim rest) :
    Delim (fieldTagText tbl tag ++ rest) := by
  rw [fieldTagText]
  by_cases h0 : tag = []
  · simpa [h0] using h
  · simp only [h0, ne_eq, not_false_iff, if_true]
    exact delim_cons (by decide)

theorem closed_tag {ts : List Tok} (h : Closed ts) (tag : GoString) :
    Closed (ts ++ if tag = [] then [] else [.str tag]) := by
  split
  · simpa using h
  · exact Closed.append h.1 (closed_one rfl)

theorem line_field {tbl : Nat → Bool} {t : TypeName} {s n tag : GoString} (h : t.onLine)
    (hs : typeNameToBuffer tbl t = .ok s)
    (hn : n = [] ∧ t.embeddable = true ∨ isIdent n = true) :
    Line parseField ((if n ≠ [] then n ++ b! " " else []) ++ s ++ fieldTagText tbl tag ++ b! "\n")
      [.mk (optName n) t.syntax (optName tag)] := by
  obtain ⟨s', hs', hl⟩ := render_type tbl h.1 h.2.1
  cases hs.symm.trans hs'
  obtain ⟨x, l, hx, hxs⟩ := toks_start h.1
  have hl2 := hl.append (lexAs_tag tbl tag) (delim_tag tbl tag)
  have hcl := closed_tag (closed_type h.1) tag
  have hpos : 0 < t.toks.length := by rw [hx]; simp
  by_cases h0 : n = []
  · have he : t.embeddable = true := by
      rcases hn with ⟨_, he⟩ | hi
      · exact he
      · rw [h0] at hi; simp [isIdent] at hi
    refine ⟨t.toks ++ (if tag = [] then [] else [.str tag]), ?_, ⟨x, _, by rw [hx]; rfl, ?_⟩, ?_⟩
    · have := Toks.line hl2 hcl false
      simpa [h0] using this
    · constructor <;> (rintro rfl; simp [typeStart] at hxs)
    · intro f rest hf
      simp only [List.length_append] at hf
      obtain ⟨f, rfl⟩ : ∃ g, f = g + 1 := ⟨f - 1, by omega⟩
      rw [List.append_assoc, parseField_embedded he (Or.inl ⟨_, rfl⟩), h0]
      rfl
  · have hi : isIdent n = true := by
      rcases hn with ⟨hn, _⟩ | hi
      · exact absurd hn h0
      · exact hi
    refine ⟨.ident n :: (t.toks ++ (if tag = [] then [] else [.str tag])), ?_,
      ⟨_, _, rfl, by simp, by simp⟩, ?_⟩
    · have := Toks.line (LexAny.append (s := n ++ b! " ") (ts := [.ident n]) (by
        intro rest tl hr
        rw [List.append_assoc]
        exact Lex.ident hi (delim_cons (by decide)) hr.space) hl2) (Closed.cons (by simp) hcl) false
      simpa [h0] using this
    · intro f rest hf
      simp only [List.length_append, List.length_cons] at hf
      obtain ⟨f, rfl⟩ : ∃ g, f = g + 1 := ⟨f - 1, by omega⟩
      rw [List.cons_append, List.append_assoc, hx, List.cons_append, parseField_named hxs,
        ← List.cons_append, ← hx]
      rw [parse_type h.1 h.2.1 h.2.2 (by omega) (follow_tag (Or.inl ⟨_, rfl⟩))]
      simp only [Option.bind_eq_bind, Option.bind_some]
      rw [optTag_of (Or.inl ⟨_, rfl⟩)]
      simp [optName, h0]

theorem line_block {s n : GoString} {t : SynType} (h : TypeText s t) (hi : isIdent n = true) :
    Line parseField (n ++ b! " " ++ s) [.mk (some n) t none] := by
  obtain ⟨ts, h1, ⟨x, l, hx, hxs⟩, h2⟩ := h
  refine ⟨.ident n :: ts, ?_, ⟨_, _, rfl, by simp, by simp⟩, ?_⟩
  · have := Toks.before (b := false) (b' := true) (s := n ++ b! " ") (ts := [.ident n]) (by
      intro rest tl hr
      rw [List.append_assoc]
      exact Lex.ident hi (delim_cons (by decide)) hr.space) rfl (h1 true)
    simpa using this
  · intro f rest hf
    simp only [List.length_cons] at hf
    obtain ⟨f, rfl⟩ : ∃ g, f = g + 1 := ⟨f - 1, by omega⟩
    rw [List.cons_append, hx, List.cons_append, parseField_named hxs, ← List.cons_append, ← hx]
    rw [h2 f (.semi :: rest) (by omega) trivial]
    rfl

theorem symbolText_string (s : Symbol) : symbolText s = s.string := by
  simp only [Symbol.string, symbolText]
  split <;> simp_all

theorem line_embed {e : InterfaceEmbed} (h : e.type.wellNamed = true) :
    Line parseElem e.text (.embed e.type.syntaxName) := by
  have key : Line parseElem (e.type.string ++ b! "\n") (.embed e.type.syntaxName) := by
    obtain ⟨x, l, hx, hxs⟩ := toks_start (t := .named e.type) rfl
    have hx : e.type.toks = x :: l := hx
    refine ⟨e.type.toks, Toks.line (symbolText_string e.type ▸ lexAs_symbol h) (closed_symbol _) false,
      ⟨x, l, hx, ?_⟩, ?_⟩
    · constructor <;> (rintro rfl; simp [typeStart] at hxs)
    · intro f rest hf
      obtain ⟨f, rfl⟩ : ∃ g, f = g + 1 := ⟨f - 1, by rw [hx] at hf; simp at hf; omega⟩
      have ht := typeName_symbol (s := e.type) (r := .semi :: rest) trivial
      have : parseElem (f + 1) (e.type.toks ++ .semi :: rest) =
          (do let (n, r) ← typeName (e.type.toks ++ .semi :: rest); some (.embed n, r)) := by
        rw [Symbol.toks]
        split <;> rfl
      rw [this, ht]; rfl
  rw [InterfaceEmbed.text, List.append_assoc]
  exact key.comment _

theorem line_method {env : Env} {m : InterfaceMethod} (hn : isIdent m.name = true)
    (hv : m.signature.valid = true) (hw : m.signature.wellNamed = true)
    (hu : m.signature.unproblematic = true) :
    ∃ s, m.text env = .ok s ∧ Line parseElem s (.method m.name m.signature.syntax) := by
  obtain ⟨w, hs, hl, w', rfl⟩ := render_sig env.isPrint hv hw
  refine ⟨_, by rw [InterfaceMethod.text, hs]; rfl, ?_⟩
  rw [List.append_assoc, List.append_assoc]
  refine Line.comment ?_ _
  obtain ⟨l, hx⟩ : ∃ l, m.signature.toks = .lparen :: l := by
    match m.signature with
    | ⟨args, results, v⟩ => exact ⟨_, rfl⟩
  refine ⟨.ident m.name :: m.signature.toks, ?_, ⟨_, _, rfl, by simp, by simp⟩, ?_⟩
  · have := Toks.line (b := false) (s := m.name ++ 40 :: w') (ts := .ident m.name :: m.signature.toks) (by
      intro rest tl hd hr
      rw [List.append_assoc]
      exact Lex.ident hn (delim_cons (by decide)) (hl rest tl hd hr))
      (Closed.cons (by simp) (closed_sig hv))
    simpa using this
  · intro f rest hf
    simp only [List.length_cons] at hf
    obtain ⟨f, rfl⟩ : ∃ g, f = g + 1 := ⟨f - 1, by omega⟩
    have hp := parse_sig hv hw hu (f := f) (rest := .semi :: rest) (by omega) trivial
    rw [hx] at hp ⊢
    rw [List.cons_append, List.cons_append, parseElem]
    rw [List.cons_append] at hp
    simp only [hp]; rfl

/-! ### Bodies made of types -/

theorem fprintf_str {env : Env} {h : Heap} {a : Arg} {s : GoString}
    (ha : a.shown env.isPrint h = .str s) : fprintf env h (b! "%v") [a] = s := by
  rw [fprintf, List.map_cons, List.map_nil, ha]
  rw [sprintf.eq_def]
  simp [fmtVerb, sprintf]

theorem fprintf_type {env : Env} {h : Heap} {t : TypeName} {s : GoString}
    (hs : typeNameToBuffer env.isPrint t = .ok s) : fprintf env h (b! "%v") [.typeName t] = s := by
  refine fprintf_str ?_
  rw [Arg.shown, string_eq_buffer, hs]
  rfl

theorem concatText_cons {α} {f : α → Outcome GoString} {a : α} {l : List α} {x y : GoString}
    (h1 : f a = .ok x) (h2 : concatText f l = .ok y) : concatText f (a :: l) = .ok (x ++ y) := by
  rw [concatText, h1, h2]; rfl

theorem embeds_text : ∀ {es : List Symbol}, es.all Symbol.wellNamed = true → ∀ {s' l},
    Lines parseElems .rbrace s' l →
    ∃ s, concatText (fun e => .ok (InterfaceEmbed.text { type := e })) es = .ok s ∧
      Lines parseElems .rbrace (s ++ s') (es.map (fun s => .embed s.syntaxName) ++ l)
  | [], _, s', l, h' => ⟨[], rfl, h'⟩
  | e :: es, h, s', l, h' => by
    simp only [List.all_cons, Bool.and_eq_true] at h
    obtain ⟨s, hs, hl⟩ := embeds_text h.2 h'
    refine ⟨_, concatText_cons rfl hs, ?_⟩
    rw [List.append_assoc]
    exact elems_cons (line_embed h.1) hl

theorem methods_text {env : Env} : ∀ {ms : List MethodType}, validMethods ms = true →
    wellNamedMethods ms = true → unproblematicMethods ms = true →
    ∃ s, concatText (fun m : MethodType => InterfaceMethod.text env
        { name := m.name, signature := m.signature }) ms = .ok s ∧
      Lines parseElems .rbrace s (syntaxMethods ms)
  | [], _, _, _ => ⟨[], rfl, elems_nil⟩
  | ⟨n, sg⟩ :: ms, h, hw, hu => by
    simp only [validMethods, wellNamedMethods, unproblematicMethods, Bool.and_eq_true] at h hw hu
    obtain ⟨s, hs, hl⟩ := methods_text (env := env) h.2 hw.2 hu.2
    obtain ⟨w, hws, hwl⟩ := line_method (env := env) (m := { name := n, signature := sg })
      hw.1.1 h.1 hw.1.2 hu.1
    exact ⟨_, concatText_cons hws hs, elems_cons hwl hl⟩

mutual
theorem underlying_text {env : Env} {h : Heap} : ∀ {t : TypeName}, t.valid = true →
    t.wellNamed = true → t.multiline = true →
    ∃ s, underlyingText env h t = .ok s ∧ TypeText s t.syntax
  | .struct fs, hv, hw, hm => by
    obtain ⟨s, hs, hl⟩ := fieldTypes_text (env := env) (h := h) (fs := fs) hv hw hm
    exact ⟨_, by rw [underlyingText, hs]; rfl, typeText_struct hl⟩
  | .interface ms es, hv, hw, hm => by
    simp only [TypeName.wellNamed, Bool.and_eq_true] at hw
    obtain ⟨s, hs, hl⟩ := methods_text (env := env) (ms := ms) hv hw.1 hm
    obtain ⟨s', hs', hl'⟩ := embeds_text hw.2 hl
    exact ⟨_, by rw [underlyingText, hs, hs']; rfl, typeText_iface hl'⟩
  | .nil, h, _, _ => by simp [TypeName.valid] at h
  | .basic _, hv, hw, hm | .named _, hv, hw, hm | .ptr _, hv, hw, hm | .slice _, hv, hw, hm
  | .array _ _, hv, hw, hm | .map _ _, hv, hw, hm | .chan _ _, hv, hw, hm
  | .func _, hv, hw, hm => by
    obtain ⟨s, hs, hl⟩ := typeText_line (tbl := env.isPrint) ⟨hv, hw, hm⟩
    exact ⟨_, by rw [underlyingText.eq_def]; simp only [hs]; rfl, hl⟩
theorem fieldTypes_text {env : Env} {h : Heap} : ∀ {fs : List FieldType}, validFields fs = true →
    wellNamedFields fs = true → multilineFields fs = true →
    ∃ s, fieldTypesText env h fs = .ok s ∧ Lines parseFields .rbrace s (syntaxFields fs)
  | [], _, _, _ => ⟨[], rfl, fields_nil⟩
  | ⟨n, t, tag⟩ :: fs, hv, hw, hm => by
    simp only [validFields, wellNamedFields, multilineFields, Bool.and_eq_true, Bool.or_eq_true,
      beq_iff_eq, Bool.not_eq_true'] at hv hw hm
    obtain ⟨s', hs', hl'⟩ := fieldTypes_text (env := env) (h := h) (fs := fs) hv.2 hw.2 hm.2
    obtain ⟨s, hs, hl⟩ := underlying_text (env := env) (h := h) (t := t) hv.1 hw.1.2 hm.1.2
    cases hb : t.isBlock with
    | true =>
      have ht : tag = [] := by
        rcases hm.1.1 with h | h
        · rw [hb] at h; simp at h
        · exact h
      have hi : isIdent n = true := by
        rcases hw.1.1 with ⟨_, h⟩ | h
        · cases t <;> simp [TypeName.isBlock, TypeName.embeddable] at hb h
        · exact h
      have h0 : n ≠ [] := by rintro rfl; simp [isIdent] at hi
      refine ⟨(n ++ b! " " ++ s ++ b! "\n") ++ s', ?_, ?_⟩
      · cases t <;> simp only [TypeName.isBlock, Bool.false_eq_true] at hb <;>
          (rw [fieldTypesText, hs, hs', if_pos h0, ht]; simp [fieldTagText])
      · rw [syntaxFields, ht, show optName n = some n by simp [optName, h0]]
        exact fields_cons (line_block hl hi).newline hl'
    | false =>
      have ho : t.onLine := ⟨hv.1, hw.1.2, by
        have := hm.1.2
        cases t <;> first | exact this | simp [TypeName.isBlock] at hb⟩
      obtain ⟨w, hws, _⟩ := render_type env.isPrint ho.1 ho.2.1
      have hline := line_field (tag := tag) ho hws hw.1.1
      refine ⟨_, ?_, fields_cons hline hl'⟩
      rw [fieldTypesText, hs', ← fprintf_type (h := h) hws]
      · rfl
      · rintro rfl; simp [TypeName.valid] at hv
      · rintro _ rfl; simp [TypeName.isBlock] at hb
      · rintro _ _ rfl; simp [TypeName.isBlock] at hb
end

/-! ### Bodies of specs -/

theorem elem_text {env : Env} {h : Heap} {e : IfaceElem} {g : GoElem SynName} (he : ElemOf h e g) :
    ∃ s, IfaceElem.text env h e = .ok s ∧ Line parseElem s g := by
  cases he with
  | embed hp hw => exact ⟨_, by rw [IfaceElem.text, deref, hp]; rfl, line_embed hw⟩
  | method hp hn hv hw hu =>
    obtain ⟨s, hs, hl⟩ := line_method (env := env) hn hv hw hu
    exact ⟨s, by rw [IfaceElem.text, deref, hp]; exact hs, hl⟩

theorem elems_text {env : Env} {h : Heap} : ∀ {es : List IfaceElem} {l : List (GoElem SynName)},
    ElemsOf h es l →
    ∃ s, concatText (IfaceElem.text env h) es = .ok s ∧ Lines parseElems .rbrace s l
  | _, _, .nil => ⟨[], rfl, elems_nil⟩
  | _, _, .cons he hes => by
    obtain ⟨x, hx, hl⟩ := elem_text (env := env) he
    obtain ⟨y, hy, hl'⟩ := elems_text (env := env) hes
    exact ⟨_, concatText_cons hx hy, elems_cons hl hl'⟩

theorem kind_block {t : TypeName} (hb : t.isBlock = true) :
    ∃ k, t.kind = .ok k ∧ (k = .struct ∨ k = .interface) := by
  cases t <;> simp only [TypeName.isBlock, Bool.false_eq_true] at hb
  · exact ⟨_, rfl, Or.inl rfl⟩
  · exact ⟨_, rfl, Or.inr rfl⟩

theorem kind_line {t : TypeName} (hv : t.valid = true) (hb : t.isBlock = false) :
    ∃ k, t.kind = .ok k ∧ ¬ (k = .struct ∨ k = .interface) := by
  cases t <;> first | (simp [TypeName.isBlock] at hb; done) | (simp [TypeName.valid] at hv; done) |
    exact ⟨_, rfl, by decide⟩

theorem onLine_named {s : Symbol} (h : s.wellNamed = true) : (TypeName.named s).onLine := ⟨rfl, h, rfl⟩

mutual
theorem body_text {env : Env} {h : Heap} : ∀ {ts : TypeSpec} {t : SynType}, BodyOf h ts t →
    ∃ n s, (∀ fuel, n ≤ fuel → writeUnderlying env h fuel ts = .ok s) ∧ TypeText s t
  | _, _, .struct hu hb => by
    obtain ⟨n, s, hs, hl⟩ := fields_text (env := env) hb
    refine ⟨n + 1, _, ?_, typeText_struct hl⟩
    intro fuel hf
    obtain ⟨fuel, rfl⟩ : ∃ g, fuel = g + 1 := ⟨fuel - 1, by omega⟩
    rw [writeUnderlying]
    simp only [hu, hs fuel (by omega)]
    rfl
  | _, _, .iface hu hb => by
    obtain ⟨s, hs, hl⟩ := elems_text (env := env) hb
    refine ⟨1, _, ?_, typeText_iface hl⟩
    intro fuel hf
    obtain ⟨fuel, rfl⟩ : ∃ g, fuel = g + 1 := ⟨fuel - 1, by omega⟩
    rw [writeUnderlying]
    simp only [hu, hs]
    rfl
  | ts, _, .other hb ho => by
    obtain ⟨s, hs, hl⟩ := typeText_line (tbl := env.isPrint) ho
    refine ⟨1, _, ?_, hl⟩
    intro fuel hf
    obtain ⟨fuel, rfl⟩ : ∃ g, fuel = g + 1 := ⟨fuel - 1, by omega⟩
    rw [writeUnderlying]
    have hv := ho.1
    generalize ts.underlying = u at hs hb hv ⊢
    cases u <;> first | (simp [TypeName.isBlock] at hb; done) | (simp [TypeName.valid] at hv; done) |
      (simp only [hs]; rfl)
theorem fields_text {env : Env} {h : Heap} : ∀ {ps : List Ptr} {l : List (GoField SynName)},
    FieldsOf h ps l →
    ∃ n s, (∀ fuel, n ≤ fuel → concatText (fun p => (deref h.fields p).bind fun f =>
        f.text env h (writeUnderlying env h fuel)) ps = .ok s) ∧ Lines parseFields .rbrace s l
  | _, _, .nil => ⟨0, [], fun _ _ => rfl, fields_nil⟩
  | _, _, .cons hp hf hps => by
    obtain ⟨n, s, hs, hl⟩ := field_text (env := env) hf
    obtain ⟨m, s', hs', hl'⟩ := fields_text (env := env) hps
    refine ⟨max n m, _, ?_, fields_cons hl hl'⟩
    intro fuel hfu
    refine concatText_cons ?_ (hs' fuel (by omega))
    rw [deref, hp]; exact hs fuel (by omega)
theorem field_text {env : Env} {h : Heap} : ∀ {f : FieldSpec} {g : GoField SynName}, FieldOf h f g →
    ∃ n s, (∀ fuel, n ≤ fuel → f.text env h (writeUnderlying env h fuel) = .ok s) ∧
      Line parseField s [g]
  | f, _, .line (t := t) ht hb ho hn => by
    obtain ⟨w, hws, _⟩ := render_type env.isPrint ho.1 ho.2.1
    refine ⟨0, _, ?_, (line_field (tag := f.tag) ho hws hn).comment f.comment⟩
    intro fuel _
    obtain ⟨k, hk, hk'⟩ := kind_line ho.1 hb
    rw [FieldSpec.text, ht, fieldTypeText, hk]
    simp only [Outcome.bind, bind, hk', if_false, fprintf_type hws]
    simp [pure]
  | f, _, .block ht hb hv hw hm hn htag => by
    obtain ⟨s, hs, hl⟩ := underlying_text (env := env) (h := h) hv hw hm
    refine ⟨0, _, ?_, ((line_block hl hn).newline).comment f.comment⟩
    intro fuel _
    obtain ⟨k, hk, hk'⟩ := kind_block hb
    have h0 : f.name ≠ [] := by intro e; rw [e] at hn; simp [isIdent] at hn
    rw [FieldSpec.text, ht, fieldTypeText, hk]
    simp only [Outcome.bind, bind, hk', if_true, hs]
    simp [pure, h0, htag, fieldTagText]
  | f, _, .named (s := s) ht hq h0 hs hw hn => by
    have ho := onLine_named hw
    have hws : typeNameToBuffer env.isPrint (.named s) = .ok s.string := by
      rw [← symbolText_string]; rfl
    refine ⟨0, _, ?_, (line_field (tag := f.tag) ho hws (hn.imp_left (fun h => ⟨h, rfl⟩))).comment
      f.comment⟩
    intro fuel _
    rw [FieldSpec.text, ht, fieldTypeText, deref, hq]
    simp only [Outcome.bind, bind, h0, if_false, hs]
    rw [fprintf_str (a := .symbol s) (s := s.string) rfl]
    simp [pure]
  | f, _, .unnamed ht hq h0 hb hn htag => by
    obtain ⟨n, s, hs, hl⟩ := body_text (env := env) hb
    refine ⟨n, _, ?_, ((line_block hl hn).newline).comment f.comment⟩
    intro fuel hf
    have hne : f.name ≠ [] := by intro e; rw [e] at hn; simp [isIdent] at hn
    rw [FieldSpec.text, ht, fieldTypeText, deref, hq]
    simp only [Outcome.bind, bind, h0, if_true, hs fuel hf]
    simp [pure, hne, htag, fieldTagText]
end

/-! ### Declarations -/

theorem typeSpec_text {s n : GoString} {t : SynType} (h : TypeText s t) (hi : isIdent n = true)
    (al : Bool) :
    ∃ ts, (∀ b, Toks b (n ++ b! " " ++ (if al then b! "= " else []) ++ s) (.ident n :: (ts ++ [.semi]))) ∧
      ∀ f rest, 4 * ts.length ≤ f →
        parseTypeSpec f (.ident n :: (ts ++ .semi :: rest)) = some (⟨n, al, t⟩, .semi :: rest) := by
  obtain ⟨ts, h1, ⟨x, l, hx, hxs⟩, h2⟩ := h
  cases al with
  | true =>
    refine ⟨.assign :: ts, fun b => ?_, ?_⟩
    · have := Toks.before (b := b) (b' := false) (s := n ++ b! " " ++ b! "= ")
        (ts := [.ident n, .assign]) (by
        intro rest tl hr
        rw [List.append_assoc, List.append_assoc]
        exact Lex.ident hi (delim_cons (by decide)) (Lex.space (Lex.punct' (by decide) hr.space)))
        rfl (h1 false)
      simpa using this
    · intro f rest hf
      rw [List.cons_append, parseTypeSpec, h2 f (.semi :: rest) (by simp at hf; omega) trivial]
      rfl
  | false =>
    refine ⟨ts, fun b => ?_, ?_⟩
    · have := Toks.before (b := b) (b' := true) (s := n ++ b! " ") (ts := [.ident n]) (by
        intro rest tl hr
        rw [List.append_assoc]
        exact Lex.ident hi (delim_cons (by decide)) hr.space) rfl (h1 true)
      simpa using this
    · intro f rest hf
      have : parseTypeSpec f (.ident n :: (ts ++ .semi :: rest)) =
          (do let (t, r) ← parseType f (ts ++ .semi :: rest); some (⟨n, false, t⟩, r)) := by
        rw [hx, List.cons_append]
        cases x <;> first | rfl | simp [typeStart] at hxs
      rw [this, h2 f (.semi :: rest) hf trivial]
      rfl

theorem spec_line {env : Env} {h : Heap} {p : Ptr} {d : DeclaredType} (hd : DeclaresType h p d) :
    ∃ n s, (∀ fuel, n ≤ fuel →
        ((deref h.types p).bind fun t => t.text env h fuel true) = .ok s) ∧ Line parseTypeSpec s d := by
  obtain ⟨ts, hp, hi, h1, h2, hb⟩ := hd
  obtain ⟨n, s, hs, hl⟩ := body_text (env := env) hb
  obtain ⟨ls, h3, h4⟩ := typeSpec_text hl hi ts.isAlias
  obtain ⟨dn, da, dt⟩ := d
  simp only at h1 h2
  subst h1 h2
  refine ⟨n, writeComment ts.comment ++ (ts.name ++ b! " " ++ (if ts.isAlias then b! "= " else []) ++ s),
    ?_, ?_⟩
  · intro fuel hf
    rw [deref, hp]
    simp only [Outcome.bind, TypeSpec.text, hs fuel hf, bind]
    simp [pure]
  · refine Line.comment ⟨.ident ts.name :: ls, by simpa using h3 false, ⟨_, _, rfl, by simp, by simp⟩, ?_⟩ _
    intro f rest hf
    rw [List.cons_append, h4 f rest (by simp at hf; omega)]

theorem specs_text {env : Env} {h : Heap} {ps : List Ptr} {ds : List DeclaredType}
    (hd : List.Forall₂ (DeclaresType h) ps ds) :
    ∃ n s, (∀ fuel, n ≤ fuel → concatText
        (fun p => (deref h.types p).bind fun t => t.text env h fuel true) ps = .ok s) ∧
      Lines parseTypeSpecs .rparen s ds := by
  induction hd with
  | nil => exact ⟨0, [], fun _ _ => rfl, specs_nil⟩
  | cons hp _ ih =>
    obtain ⟨n, s, hs, hl⟩ := spec_line (env := env) hp
    obtain ⟨m, s', hs', hl'⟩ := ih
    exact ⟨max n m, _, fun fuel hf => concatText_cons (hs fuel (by omega)) (hs' fuel (by omega)),
      specs_cons hl hl'⟩

theorem parse_of_toks {s : GoString} {ts : List Tok} {d : TypeDeclSyn} (h : Toks false s (ts ++ [.semi]))
    (hp : ∀ f, 4 * ts.length + 4 ≤ f → parseTypeDecl f (ts ++ [.semi]) = some (d, [.semi])) :
    parseGoTypeDecl s = some d := by
  obtain ⟨ls, h1, h2⟩ := h
  have hl : lex s = some ls := by simpa using (h1 [] [] Lex.nil).lex
  rw [parseGoTypeDecl, hl]
  simp only [Option.bind_eq_bind, Option.bind_some, insertSemis, h2, Bool.false_eq_true, if_false,
    List.append_nil]
  rw [hp _ (by simp; omega)]
  simp

theorem decl_text {env : Env} {h : Heap} {d : TypeDecl} {ds : List DeclaredType}
    (hne : d.types ≠ [] ∨ d.comment ≠ []) (hd : List.Forall₂ (DeclaresType h) d.types ds) :
    ∃ n s, (∀ fuel, n ≤ fuel → d.text env h fuel = .ok s) ∧
      ((d.types.length > 1 ∨ d.comment ≠ []) → parseGoTypeDecl s = some (.group ds)) ∧
      (¬(d.types.length > 1 ∨ d.comment ≠ []) → ∃ t, ds = [t] ∧ parseGoTypeDecl s = some (.single t)) := by
  by_cases hg : d.types.length > 1 ∨ d.comment ≠ []
  · obtain ⟨n, s, hs, ts, h1, h2⟩ := specs_text (env := env) hd
    refine ⟨n, writeComment d.comment ++ (b! "type (\n" ++ s ++ b! ")\n"), ?_, fun _ => ?_,
      fun hng => absurd hg hng⟩
    · intro fuel hf
      rw [TypeDecl.text, if_pos hg, hs fuel hf]
      simp [bind, Outcome.bind, pure]
    · refine parse_of_toks (ts := .kw .kType :: .lparen :: (ts ++ [.rparen])) ?_ ?_
      · have := (Toks.comment d.comment).append (ts' := .kw .kType :: .lparen :: (ts ++ [.rparen, .semi]))
          (s' := b! "type (\n" ++ s ++ b! ")\n") (by
            obtain ⟨ls, h3, h4⟩ := h1
            refine ⟨.kw .kType :: .lparen :: .nl :: (ls ++ [.rparen, .nl]), ?_, ?_⟩
            · intro rest tl hr
              simp only [List.append_assoc, List.cons_append, List.nil_append]
              refine Lex.kw (w := b! "type") (by decide) (delim_cons (by decide)) (Lex.space
                (Lex.punct' (by decide) (Lex.newline ?_)))
              exact h3 _ _ (Lex.punct' (by decide) hr.newline)
            · rw [semiStep_cons (by simp), semiStep_cons (by simp)]
              simp [semiStep, endsStatement, semiStep_append, h4])
        simpa using this
      · intro f hf
        have := h2 f [.semi] (by simp at hf; omega)
        simp only [List.cons_append, List.append_assoc, List.nil_append]
        rw [parseTypeDecl]; simp only [this]; rfl
  · have hg' := hg
    simp only [not_or, Nat.not_lt, ne_eq, not_not] at hg'
    have hne' := hne.resolve_right (by simp [hg'.2])
    obtain ⟨dc, dts⟩ := d
    match dts, ds, hd, hg', hne' with
    | [p], [x], .cons hp .nil, hg', _ =>
      obtain ⟨ts, hp, hi, h1, h2, hb⟩ := hp
      obtain ⟨n, s, hs, hl⟩ := body_text (env := env) hb
      obtain ⟨ls, h3, h4⟩ := typeSpec_text hl hi ts.isAlias
      obtain ⟨dn, da, dt⟩ := x
      simp only at h1 h2 h4 hg hg'
      subst h1 h2
      refine ⟨n, writeComment ts.comment ++ (b! "type " ++
        (ts.name ++ b! " " ++ (if ts.isAlias then b! "= " else []) ++ s)),
        ?_, fun hc => absurd hc hg, fun _ => ⟨_, rfl, ?_⟩⟩
      · intro fuel hf
        rw [TypeDecl.text, if_neg hg]
        simp only [deref, hp, Outcome.bind, TypeSpec.text, hs fuel hf, bind]
        simp [pure]
      · refine parse_of_toks (ts := .kw .kType :: .ident ts.name :: ls) ?_ ?_
        · have := (Toks.comment ts.comment).append (Toks.before (b := false) (b' := false)
            (s := b! "type ") (ts := [.kw .kType]) (by
              intro rest tl hr
              exact Lex.kw (w := b! "type") (by decide) (delim_cons (by decide)) hr.space) rfl (h3 false))
          simpa using this
        · intro f hf
          have := h4 f [] (by simp at hf; omega)
          simp only [List.cons_append]
          rw [parseTypeDecl, this]
          · rfl
          · simp

end Gopoet
