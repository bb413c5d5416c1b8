import Verif.Model.Render
import Verif.Spec.TypeSyntax
import Verif.Proof.LexLemmas
import Verif.Proof.QuoteLemmas
/-! The tokens of a rendered type. -/

namespace Gopoet

/-- The tokens of a symbol. -/
def Symbol.toks (s : Symbol) : List Tok :=
  if s.package.name = [] then [.ident s.name] else [.ident s.package.name, .dot, .ident s.name]

/-- Tokens that are written one after the other without a separator: two identifiers become one word. -/
def glue : List Tok → List Tok → List Tok
  | [], r => r
  | [.ident a], .ident b :: r => wordTok (a ++ b) :: r
  | x :: l, r => x :: glue l r

theorem glue_nil : ∀ (l : List Tok), glue l [] = l
  | [] => rfl
  | [x] => by cases x <;> rfl
  | x :: y :: l => by
    have := glue_nil (y :: l)
    cases x <;> simp only [glue, this]

theorem glue_cons (x y : Tok) (l r : List Tok) : glue (x :: y :: l) r = x :: glue (y :: l) r := by
  cases x <;> rfl

theorem glue_append : ∀ (l : List Tok) (y : Tok) (l' r : List Tok), glue (l ++ y :: l') r = l ++ glue (y :: l') r
  | [], _, _, _ => rfl
  | [x], y, l', r => glue_cons x y l' r
  | x :: x' :: l, y, l', r => by
    show glue (x :: x' :: (l ++ y :: l')) r = _
    rw [glue_cons]
    have := glue_append (x' :: l) y l' r
    simp only [List.cons_append] at this ⊢
    rw [this]

theorem glue_append_right : ∀ (l r r' : List Tok), r ≠ [] → glue l (r ++ r') = glue l r ++ r'
  | [], _, _, _ => rfl
  | [x], r, r', h => by
    cases r with
    | nil => simp at h
    | cons y r => cases x <;> cases y <;> rfl
  | x :: y :: l, r, r', h => by
    rw [glue_cons, glue_cons, glue_append_right (y :: l) r r' h]; rfl

mutual
def TypeName.toks : TypeName → List Tok
  | .nil => []
  | .basic k => [.ident (predeclared k)]
  | .named s => s.toks
  | .ptr e => .star :: e.toks
  | .slice e => .lbrack :: .rbrack :: e.toks
  | .array e n => .lbrack :: .int n.toNat :: .rbrack :: e.toks
  | .map e k => .kw .kMap :: .lbrack :: (k.toks ++ .rbrack :: e.toks)
  | .chan e d =>
    if d = recvDir then .arrow :: .kw .kChan :: e.toks
    else if d = sendDir then .kw .kChan :: .arrow :: e.toks
    else .kw .kChan :: e.toks
  | .func s => .kw .kFunc :: s.toks
  | .struct fs => .kw .kStruct :: .lbrace :: (toksFields false fs ++ [.rbrace])
  | .interface ms es =>
    .kw .kInterface :: .lbrace :: (glue (toksEmbeds false es) (toksMethods false ms) ++ [.rbrace])
def Signature.toks : Signature → List Tok
  | ⟨args, results, v⟩ =>
    .lparen :: (toksArgs v (anyNamed args) false args ++ .rparen ::
      (if decide (results.length > 1) || anyNamed results then
        .lparen :: (toksArgs false (anyNamed results) false results ++ [.rparen])
       else toksArgs false (anyNamed results) false results))
def toksArgs (v named sep : Bool) : List ArgType → List Tok
  | [] => []
  | ⟨n, t⟩ :: l =>
    (if sep then [Tok.comma] else []) ++
      ((if named then [Tok.ident (if n = [] then b! "_" else n)] else []) ++
      ((if v && l.isEmpty then .ellipsis :: toksElem t
       else t.toks) ++ toksArgs v named true l))
def toksElem : TypeName → List Tok
  | .slice e => e.toks
  | _ => []
def toksFields (sep : Bool) : List FieldType → List Tok
  | [] => []
  | ⟨n, t, tag⟩ :: l =>
    (if sep then [Tok.semi] else []) ++ ((if n = [] then [] else [Tok.ident n]) ++
      (t.toks ++ ((if tag = [] then [] else [Tok.str tag]) ++ toksFields true l)))
def toksMethods (sep : Bool) : List MethodType → List Tok
  | [] => []
  | ⟨n, s⟩ :: l => (if sep then [Tok.semi] else []) ++ (.ident n :: (s.toks ++ toksMethods true l))
def toksEmbeds (sep : Bool) : List Symbol → List Tok
  | [] => []
  | s :: l => (if sep then [Tok.semi] else []) ++ (s.toks ++ toksEmbeds true l)
end

/-- `s` lexes as `ts`, whatever follows, as long as that does not continue a word. -/
def LexAs (s : GoString) (ts : List Tok) : Prop :=
  ∀ rest tl, Delim rest → Lex rest tl → Lex (s ++ rest) (ts ++ tl)

/-- `s` lexes as `ts` whatever follows. -/
def LexAny (s : GoString) (ts : List Tok) : Prop :=
  ∀ rest tl, Lex rest tl → Lex (s ++ rest) (ts ++ tl)

/-- Empty or starting with the separator `b`. -/
def StartsWith (b : UInt8) (s : GoString) : Prop := s = [] ∨ ∃ s', s = b :: s'

theorem StartsWith.delim {b : UInt8} {s rest : GoString} (h : StartsWith b s)
    (hb : isWordByte b = false) (hr : Delim rest) : Delim (s ++ rest) := by
  rcases h with rfl | ⟨s', rfl⟩
  · exact hr
  · exact hb

theorem delim_cons {b : UInt8} {s : GoString} (h : isWordByte b = false) : Delim (b :: s) := h

theorem basicText_eq (k : ReflectKind) : basicText k = predeclared k := by cases k <;> rfl

theorem isIdent_predeclared {k : ReflectKind} (h : k.isBasic = true) :
    isIdent (predeclared k) = true := by
  cases k <;> first | decide | simp [ReflectKind.isBasic] at h

theorem isIdent_head {s rest : GoString} (h : isIdent s = true) : (s ++ rest).head? ≠ some 46 := by
  cases s with
  | nil => simp [isIdent] at h
  | cons b s =>
    simp only [List.cons_append, List.head?_cons, ne_eq, Option.some.injEq]
    rintro rfl
    simp [isIdent, isLetterByte] at h

theorem lexAs_symbol {s : Symbol} (h : s.wellNamed = true) : LexAs (symbolText s) s.toks := by
  intro rest tl hd hr
  simp only [Symbol.wellNamed, Bool.and_eq_true, Bool.or_eq_true, beq_iff_eq] at h
  obtain ⟨hp, hn⟩ := h
  by_cases h0 : s.package.name = []
  · simp only [symbolText, Symbol.toks, h0, ne_eq, not_true, if_false, if_true, List.nil_append]
    exact Lex.ident hn hd hr
  · simp only [symbolText, Symbol.toks, h0, ne_eq, not_false_iff, if_false, if_true,
      List.append_assoc, List.cons_append, List.nil_append]
    have hp := hp.resolve_left h0
    refine Lex.ident hp (delim_cons (by decide)) (Lex.dot (isIdent_head hn) (Lex.ident hn hd hr))

theorem lexAny_tag (tbl : Nat → Bool) (tag : GoString) : LexAny (tagText tbl tag) [.str tag] := by
  intro rest tl hr
  rw [tagText]
  split
  · rename_i hc
    have := stringLit_backquote hc rest
    have e : b! "`" ++ tag ++ b! "`" ++ rest = (96 :: tag ++ [96]) ++ rest := rfl
    rw [e]
    refine Lex.str (v := tag) ?_ (Or.inr rfl) hr
    simpa using this
  · exact Lex.str (stringLit_quote tbl tag rest) (Or.inl rfl) hr

theorem lexAny_paramName {named : Bool} {n : GoString} (h : n = [] ∨ isIdent n = true) :
    LexAny (paramName named n)
      (if named then [Tok.ident (if n = [] then b! "_" else n)] else []) := by
  intro rest tl hr
  cases named with
  | false => simpa [paramName] using hr
  | true =>
    simp only [paramName, if_true]
    by_cases h0 : n = []
    · simp only [h0, ne_eq, not_true, if_false, if_true, List.cons_append, List.nil_append]
      exact Lex.ident (w := b! "_") (by decide) (delim_cons (by decide)) hr.space
    · simp only [h0, ne_eq, not_false_iff, if_true, if_false, List.cons_append, List.nil_append,
        List.append_assoc]
      exact Lex.ident (h.resolve_left h0) (delim_cons (by decide)) hr.space

theorem lexAny_sep {sep : Bool} : LexAny (if sep then b! ", " else []) (if sep then [.comma] else []) := by
  intro rest tl hr
  cases sep
  · simpa using hr
  · exact Lex.punct' (by decide) hr.space

theorem lexAny_semi {sep : Bool} : LexAny (if sep then b! "; " else []) (if sep then [.semi] else []) := by
  intro rest tl hr
  cases sep
  · simpa using hr
  · exact Lex.punct' (by decide) hr.space

theorem LexAny.toAs {s ts} (h : LexAny s ts) : LexAs s ts := fun rest tl _ hr => h rest tl hr

theorem LexAny.append {s ts s' ts'} (h : LexAny s ts) (h' : LexAs s' ts') :
    LexAs (s ++ s') (ts ++ ts') := by
  intro rest tl hd hr
  rw [List.append_assoc, List.append_assoc]
  exact h _ _ (h' _ _ hd hr)

theorem LexAs.append {s ts s' ts'} (h : LexAs s ts) (h' : LexAs s' ts')
    (hd : ∀ rest, Delim rest → Delim (s' ++ rest)) : LexAs (s ++ s') (ts ++ ts') := by
  intro rest tl hdr hr
  rw [List.append_assoc, List.append_assoc]
  exact h _ _ (hd _ hdr) (h' _ _ hdr hr)

theorem LexAs.nil : LexAs [] [] := fun _ _ _ h => h

theorem gt_eq_decide {i : Nat} {α} (a b : α) :
    (if i > 0 then a else b) = if decide (0 < i) then a else b := by simp

theorem lexAs_embeds : ∀ {es : List Symbol} (i : Nat), es.all Symbol.wellNamed = true →
    LexAs (embedsToBuffer i es) (toksEmbeds (decide (0 < i)) es) ∧
      (0 < i → StartsWith 59 (embedsToBuffer i es))
  | [], i, _ => ⟨LexAs.nil, fun _ => Or.inl rfl⟩
  | s :: es, i, h => by
    simp only [List.all_cons, Bool.and_eq_true] at h
    obtain ⟨ih, ihs⟩ := lexAs_embeds (i + 1) h.2
    rw [embedsToBuffer, toksEmbeds, gt_eq_decide, List.append_assoc]
    refine ⟨LexAny.append lexAny_semi (LexAs.append (lexAs_symbol h.1) ?_
      fun rest hd => (ihs (by omega)).delim (by decide) hd), ?_⟩
    · simpa using ih
    · intro hi; right; simp [hi]

theorem isWord_append {a b : GoString} (ha : isIdent a = true) (hb : isIdent b = true) : isWord (a ++ b) = true := by
  have ha := isIdent_isWord ha
  have hb := isIdent_isWord hb
  cases a with
  | nil => simp [isWord] at ha
  | cons x a =>
    simp only [isWord, Bool.and_eq_true, List.cons_append, List.all_cons, List.all_append] at ha hb ⊢
    exact ⟨ha.1, ha.2.1, ha.2.2, hb.2⟩

/-- The last embedded interface and the first method are written without a separator. -/
theorem lex_glued : ∀ {es : List Symbol} (i : Nat), es ≠ [] → es.all Symbol.wellNamed = true →
    ∀ {n rest : GoString} {tl : List Tok}, isIdent n = true → Delim rest → Lex rest tl →
    Lex (embedsToBuffer i es ++ (n ++ rest)) (glue (toksEmbeds (decide (0 < i)) es) (.ident n :: tl))
  | [], _, h, _, _, _, _, _, _, _ => by simp at h
  | [s], i, _, h, n, rest, tl, hn, hd, hr => by
    simp only [List.all_cons, List.all_nil, Bool.and_true] at h
    simp only [Symbol.wellNamed, Bool.and_eq_true, Bool.or_eq_true, beq_iff_eq] at h
    have hw : Lex (s.name ++ (n ++ rest)) (wordTok (s.name ++ n) :: tl) := by
      rw [← List.append_assoc]
      exact Lex.word (isWord_append h.2 hn) hd hr
    have hs : Lex (symbolText s ++ (n ++ rest)) (glue s.toks (.ident n :: tl)) := by
      by_cases h0 : s.package.name = []
      · simpa [symbolText, Symbol.toks, h0, glue] using hw
      · simp only [symbolText, Symbol.toks, h0, ne_eq, not_false_iff, if_false, if_true,
          List.append_assoc, List.cons_append, List.nil_append]
        exact Lex.ident (h.1.resolve_left h0) (delim_cons (by decide)) (Lex.dot (isIdent_head h.2) hw)
    rw [embedsToBuffer, toksEmbeds, gt_eq_decide]
    simp only [embedsToBuffer, toksEmbeds, List.append_nil, List.append_assoc]
    obtain ⟨y, l, hy⟩ : ∃ y l, s.toks = y :: l := by rw [Symbol.toks]; split <;> exact ⟨_, _, rfl⟩
    rw [hy] at hs ⊢
    rw [glue_append]
    exact lexAny_semi _ _ hs
  | s :: s' :: es, i, _, h, n, rest, tl, hn, hd, hr => by
    rw [List.all_cons, Bool.and_eq_true] at h
    have ih := lex_glued (es := s' :: es) (i + 1) (by simp) h.2 hn hd hr
    rw [embedsToBuffer, toksEmbeds, gt_eq_decide]
    simp only [List.append_assoc]
    have hd' : Delim (embedsToBuffer (i + 1) (s' :: es) ++ (n ++ rest)) := by
      rw [embedsToBuffer, if_pos (by omega)]; exact delim_cons (by decide)
    simp only [Nat.zero_lt_succ, decide_true] at ih
    obtain ⟨y, l, hy⟩ : ∃ y l, toksEmbeds true (s' :: es) = y :: l := ⟨_, _, rfl⟩
    rw [hy] at ih ⊢
    have e : glue ((if decide (0 < i) then [Tok.semi] else []) ++ (s.toks ++ y :: l)) (.ident n :: tl)
        = (if decide (0 < i) then [Tok.semi] else []) ++ (s.toks ++ glue (y :: l) (.ident n :: tl)) := by
      rw [← List.append_assoc, glue_append, List.append_assoc]
    rw [e]
    exact lexAny_semi _ _ (lexAs_symbol h.1 _ _ hd' ih)

theorem lastIsSlice_cons {a b : ArgType} {l : List ArgType} :
    lastIsSlice (a :: b :: l) = lastIsSlice (b :: l) := by
  simp [lastIsSlice, List.getLast?_cons_cons]

/-- The first byte of a rendered list is its separator unless the list is at its start. -/
def SepList (b : UInt8) (i : Nat) (s : GoString) : Prop := 0 < i → StartsWith b s

mutual
theorem render_type (tbl : Nat → Bool) : ∀ {t : TypeName}, t.valid = true → t.wellNamed = true →
    ∃ s, typeNameToBuffer tbl t = .ok s ∧ LexAs s t.toks
  | .nil, h, _ => by simp [TypeName.valid] at h
  | .basic k, h, _ => by
    refine ⟨_, rfl, ?_⟩
    rw [basicText_eq]
    intro rest tl hd hr
    exact Lex.ident (isIdent_predeclared h) hd hr
  | .named s, _, h => ⟨_, rfl, lexAs_symbol h⟩
  | .ptr e, h, hw => by
    obtain ⟨s, hs, hl⟩ := render_type tbl (t := e) h hw
    refine ⟨_, by rw [typeNameToBuffer, hs]; rfl, ?_⟩
    intro rest tl hd hr
    exact Lex.punct' (by decide) (hl rest tl hd hr)
  | .slice e, h, hw => by
    obtain ⟨s, hs, hl⟩ := render_type tbl (t := e) h hw
    refine ⟨_, by rw [typeNameToBuffer, hs]; rfl, ?_⟩
    intro rest tl hd hr
    exact Lex.punct' (by decide) (Lex.punct' (by decide) (hl rest tl hd hr))
  | .array e n, h, hw => by
    simp only [TypeName.valid, Bool.and_eq_true, decide_eq_true_eq] at h
    obtain ⟨s, hs, hl⟩ := render_type tbl (t := e) h.1 hw
    refine ⟨_, by rw [typeNameToBuffer, hs]; rfl, ?_⟩
    intro rest tl hd hr
    simp only [List.append_assoc, List.cons_append, List.nil_append, TypeName.toks]
    refine Lex.punct' (by decide) ?_
    obtain ⟨m, rfl⟩ : ∃ m : Nat, n = m := ⟨n.toNat, by omega⟩
    refine Lex.int (w := decDigits m) (by rw [decNum_decDigits]; simp) (decDigits_ne_nil m)
      (delim_cons (by decide)) ?_
    exact Lex.punct' (by decide) (hl rest tl hd hr)
  | .map e k, h, hw => by
    simp only [TypeName.valid, TypeName.wellNamed, Bool.and_eq_true] at h hw
    obtain ⟨s, hs, hl⟩ := render_type tbl (t := e) h.1 hw.1
    obtain ⟨s', hs', hl'⟩ := render_type tbl (t := k) h.2 hw.2
    refine ⟨_, by rw [typeNameToBuffer, hs, hs']; rfl, ?_⟩
    intro rest tl hd hr
    simp only [List.append_assoc, List.cons_append, List.nil_append, TypeName.toks]
    refine Lex.kw (w := b! "map") (by decide) (delim_cons (by decide)) (Lex.punct' (by decide) ?_)
    refine hl' _ _ (delim_cons (by decide)) (Lex.punct' (by decide) ?_)
    exact hl _ _ hd hr
  | .chan e d, h, hw => by
    simp only [TypeName.valid, Bool.and_eq_true] at h
    obtain ⟨s, hs, hl⟩ := render_type tbl (t := e) h.1 hw
    refine ⟨_, by rw [typeNameToBuffer, hs]; rfl, ?_⟩
    intro rest tl hd hr
    have hb := hl rest tl hd hr
    have hne : recvDir ≠ sendDir := by decide
    rw [TypeName.toks]
    by_cases h1 : d = recvDir
    · subst h1
      simp only [if_true, if_neg hne, List.cons_append, List.nil_append]
      exact Lex.arrow (Lex.kw (w := b! "chan") (by decide) (delim_cons (by decide)) hb.space)
    · by_cases h2 : d = sendDir
      · subst h2
        simp only [if_true, if_neg h1, List.cons_append, List.nil_append]
        exact Lex.kw (w := b! "chan") (by decide) (delim_cons (by decide)) (Lex.arrow hb.space)
      · simp only [if_neg h1, if_neg h2, List.cons_append, List.nil_append]
        exact Lex.kw (w := b! "chan") (by decide) (delim_cons (by decide)) hb.space
  | .func s, h, hw => by
    obtain ⟨s, hs, hl⟩ := render_sig tbl (s := s) h hw
    refine ⟨_, by rw [typeNameToBuffer, hs]; rfl, ?_⟩
    intro rest tl hd hr
    rw [List.append_assoc]
    obtain ⟨s', rfl⟩ := hl.2
    exact Lex.kw (w := b! "func") (by decide) (delim_cons (by decide)) (hl.1 rest tl hd hr)
  | .struct fs, h, hw => by
    obtain ⟨s, hs, hl, _⟩ := render_fields tbl 0 (fs := fs) h hw
    refine ⟨_, by rw [typeNameToBuffer, hs]; rfl, ?_⟩
    intro rest tl hd hr
    simp only [List.append_assoc, List.cons_append, List.nil_append, TypeName.toks]
    refine Lex.kw (w := b! "struct") (by decide) (delim_cons (by decide)) (Lex.punct' (by decide) ?_)
    exact hl _ _ (delim_cons (by decide)) (Lex.punct' (by decide) hr)
  | .interface [] es, h, hw => by
    simp only [TypeName.wellNamed, Bool.and_eq_true] at hw
    have hes := (lexAs_embeds 0 hw.2).1
    refine ⟨_, by rw [typeNameToBuffer, methodsToBuffer]; rfl, ?_⟩
    intro rest tl hd hr
    simp only [List.append_assoc, List.cons_append, List.nil_append, TypeName.toks]
    refine Lex.kw (w := b! "interface") (by decide) (delim_cons (by decide))
      (Lex.punct' (by decide) ?_)
    have hr' : Lex (125 :: rest) (.rbrace :: tl) := Lex.punct' (by decide) hr
    rw [toksMethods, glue_nil]
    exact hes _ _ (delim_cons (by decide)) hr'
  | .interface (⟨n, sg⟩ :: ms) es, h, hw => by
    simp only [TypeName.valid, validMethods, TypeName.wellNamed, wellNamedMethods, Bool.and_eq_true] at h hw
    obtain ⟨s, hs, hl, s0, rfl⟩ := render_sig tbl (s := sg) h.1 hw.1.1.2
    obtain ⟨s', hs', hl', hsep⟩ := render_methods tbl 1 (ms := ms) h.2 hw.1.2
    refine ⟨_, by rw [typeNameToBuffer, methodsToBuffer, hs, hs']; rfl, ?_⟩
    intro rest tl hd hr
    simp only [List.append_assoc, List.cons_append, List.nil_append, TypeName.toks, Nat.lt_irrefl, if_false,
      gt_iff_lt]
    refine Lex.kw (w := b! "interface") (by decide) (delim_cons (by decide))
      (Lex.punct' (by decide) ?_)
    have hr' : Lex (125 :: rest) (.rbrace :: tl) := Lex.punct' (by decide) hr
    have hd' : Delim (125 :: rest) := delim_cons (by decide)
    simp only [Nat.zero_lt_one, decide_true] at hl'
    have hbody := hl.append hl' (fun rest hd => (hsep (by omega)).delim (by decide) hd) _ _ hd' hr'
    simp only [List.append_assoc, List.cons_append] at hbody
    rw [toksMethods]
    simp only [Bool.false_eq_true, if_false, List.nil_append]
    rw [← glue_append_right _ _ _ (by simp)]
    simp only [List.append_assoc, List.cons_append]
    cases es with
    | nil => exact Lex.ident hw.1.1.1 (delim_cons (by decide)) hbody
    | cons e es => simpa using lex_glued 0 (by simp) hw.2 hw.1.1.1 (delim_cons (by decide)) hbody
theorem render_fields (tbl : Nat → Bool) (i : Nat) : ∀ {fs : List FieldType},
    validFields fs = true → wellNamedFields fs = true →
    ∃ s, fieldsToBuffer tbl i fs = .ok s ∧ LexAs s (toksFields (decide (0 < i)) fs) ∧ SepList 59 i s
  | [], _, _ => ⟨[], rfl, LexAs.nil, fun _ => Or.inl rfl⟩
  | ⟨n, t, tag⟩ :: fs, h, hw => by
    simp only [validFields, wellNamedFields, Bool.and_eq_true, Bool.or_eq_true,
      beq_iff_eq] at h hw
    obtain ⟨s, hs, hl⟩ := render_type tbl (t := t) h.1 hw.1.2
    obtain ⟨s', hs', hl', hsep⟩ := render_fields tbl (i + 1) (fs := fs) h.2 hw.2
    refine ⟨_, by rw [fieldsToBuffer, hs, hs']; rfl, ?_, ?_⟩
    · rw [toksFields, gt_eq_decide]
      simp only [List.append_assoc]
      refine LexAny.append lexAny_semi ?_
      simp only [Nat.zero_lt_succ, decide_true] at hl'
      have htag : LexAs ((if tag ≠ [] then b! " " ++ tagText tbl tag else []) ++ s')
          ((if tag = [] then [] else [Tok.str tag]) ++ toksFields true fs) := by
        by_cases h0 : tag = []
        · simpa [h0] using hl'
        · simp only [h0, ne_eq, not_false_iff, if_true, if_false]
          refine LexAny.append ?_ hl'
          intro rest tl hr
          exact (lexAny_tag tbl tag rest tl hr).space
      have hbody : LexAs (s ++ ((if tag ≠ [] then b! " " ++ tagText tbl tag else []) ++ s'))
          (t.toks ++ ((if tag = [] then [] else [Tok.str tag]) ++ toksFields true fs)) := by
        refine hl.append htag ?_
        intro rest hd
        by_cases h0 : tag = []
        · simpa [h0] using (hsep (by omega)).delim (by decide) hd
        · simp only [h0, ne_eq, not_false_iff, if_true]
          exact delim_cons (by decide)
      by_cases h0 : n = []
      · simpa [h0] using hbody
      · have hn : isIdent n = true := by
          rcases hw.1.1 with ⟨hn, _⟩ | hn
          · exact absurd hn h0
          · exact hn
        simp only [h0, ne_eq, not_false_iff, if_true, if_false]
        refine LexAny.append ?_ hbody
        intro rest tl hr
        rw [List.append_assoc]
        exact Lex.ident hn (delim_cons (by decide)) hr.space
    · intro hi; right; simp [hi]
theorem render_methods (tbl : Nat → Bool) (i : Nat) : ∀ {ms : List MethodType},
    validMethods ms = true → wellNamedMethods ms = true →
    ∃ s, methodsToBuffer tbl i ms = .ok s ∧ LexAs s (toksMethods (decide (0 < i)) ms) ∧ SepList 59 i s
  | [], _, _ => ⟨[], rfl, LexAs.nil, fun _ => Or.inl rfl⟩
  | ⟨n, sg⟩ :: ms, h, hw => by
    simp only [validMethods, wellNamedMethods, Bool.and_eq_true] at h hw
    obtain ⟨s, hs, hl, hp⟩ := render_sig tbl (s := sg) h.1 hw.1.2
    obtain ⟨s', hs', hl', hsep⟩ := render_methods tbl (i + 1) (ms := ms) h.2 hw.2
    refine ⟨_, by rw [methodsToBuffer, hs, hs']; rfl, ?_, ?_⟩
    · rw [toksMethods, gt_eq_decide]
      simp only [List.append_assoc]
      refine LexAny.append lexAny_semi ?_
      simp only [Nat.zero_lt_succ, decide_true] at hl'
      have hbody := hl.append hl' (fun rest hd => (hsep (by omega)).delim (by decide) hd)
      intro rest tl hd hr
      obtain ⟨s0, rfl⟩ := hp
      rw [List.append_assoc]
      exact Lex.ident hw.1.1 (delim_cons (by decide)) (hbody rest tl hd hr)
    · intro hi; right; simp [hi]
theorem render_sig (tbl : Nat → Bool) : ∀ {s : Signature}, s.valid = true → s.wellNamed = true →
    ∃ w, signatureToBuffer tbl s = .ok w ∧ LexAs w s.toks ∧ ∃ w', w = 40 :: w'
  | ⟨args, results, v⟩, h, hw => by
    simp only [Signature.valid, Signature.wellNamed, Bool.and_eq_true,
      Bool.or_eq_true, Bool.not_eq_true'] at h hw
    obtain ⟨a, ha, hla, _⟩ := render_args tbl v (anyNamed args) args.length 0 (l := args)
      h.1.1 hw.1 (by simp) (by
        intro hv hne; rcases h.2 with h' | h'
        · simp [hv] at h'
        · exact h')
    obtain ⟨r, hr, hlr, _⟩ := render_args tbl false (anyNamed results) results.length 0
      (l := results) h.1.2 hw.2 (by simp) (by simp)
    refine ⟨_, by rw [signatureToBuffer, ha, hr]; rfl, ?_, by exact ⟨_, rfl⟩⟩
    intro rest tl hd hrest
    simp only [List.append_assoc, List.cons_append, List.nil_append, Signature.toks]
    refine Lex.punct' (by decide) ?_
    simp only [Nat.lt_irrefl, decide_false] at hla hlr
    refine hla _ _ (delim_cons (b := 41) (by decide)) (Lex.punct' (b := 41) (t := .rparen) (by decide) ?_)
    by_cases h0 : results = []
    · subst h0
      simpa [anyNamed, toksArgs] using hrest
    · have hlen : results.length > 0 := List.length_pos_iff.2 h0
      rw [if_pos hlen]
      by_cases hp : (decide (results.length > 1) || anyNamed results) = true
      · simp only [hp, if_true, List.append_assoc, List.cons_append, List.nil_append]
        refine Lex.space (Lex.punct' (by decide) ?_)
        exact hlr _ _ (delim_cons (b := 41) (by decide)) (Lex.punct' (b := 41) (by decide) hrest)
      · rw [Bool.not_eq_true] at hp
        simp only [hp, Bool.false_eq_true, if_false, List.cons_append,
          List.nil_append, List.append_nil]
        exact Lex.space (hlr _ _ hd hrest)
theorem render_args (tbl : Nat → Bool) (v named : Bool) (n i : Nat) : ∀ {l : List ArgType},
    validArgs l = true → wellNamedArgs l = true →
    n = i + l.length → (v = true → l ≠ [] → lastIsSlice l = true) →
    ∃ s, argsToBuffer tbl v named n i l = .ok s ∧ LexAs s (toksArgs v named (decide (0 < i)) l) ∧
      SepList 44 i s
  | [], _, _, _, _ => ⟨[], rfl, LexAs.nil, fun _ => Or.inl rfl⟩
  | ⟨nm, t⟩ :: l, h, hw, hn, hv => by
    simp only [validArgs, wellNamedArgs, Bool.and_eq_true, Bool.or_eq_true,
      beq_iff_eq] at h hw
    have hlast : (i == n - 1) = l.isEmpty := by
      rw [Bool.eq_iff_iff, beq_iff_eq, List.isEmpty_iff]
      simp only [List.length_cons] at hn
      constructor
      · intro hi; exact List.length_eq_zero_iff.1 (by omega)
      · rintro rfl; simp at hn; omega
    obtain ⟨s', hs', hl', hsep⟩ := render_args tbl v named n (i + 1) (l := l) h.2 hw.2
      (by simp at hn; omega) (by
        intro hv' hne
        have := hv hv' (by simp)
        cases l with
        | nil => simp at hne
        | cons b l => rwa [lastIsSlice_cons] at this)
    simp only [Nat.zero_lt_succ, decide_true] at hl'
    have key : ∃ a, (if v && i == n - 1 then
        Outcome.bind (elemToBuffer tbl t) fun a => .ok (b! "..." ++ a)
        else typeNameToBuffer tbl t) = .ok a ∧
        LexAs a (if v && l.isEmpty then .ellipsis :: toksElem t else t.toks) := by
      rw [hlast]
      by_cases hc : (v && l.isEmpty) = true
      · simp only [hc, if_true]
        simp only [Bool.and_eq_true, List.isEmpty_iff] at hc
        obtain ⟨hv', rfl⟩ := hc
        have hs := hv hv' (by simp)
        match t, h, hw, hs with
        | .slice e, h, hw, _ =>
          obtain ⟨a, ha, hla⟩ := render_type tbl (t := e) h.1 hw.1.2
          refine ⟨b! "..." ++ a, by simp [elemToBuffer, ha, Outcome.bind], ?_⟩
          intro rest tl hd hr
          exact Lex.ellipsis (hla rest tl hd hr)
      · rw [Bool.not_eq_true] at hc
        simp only [hc, Bool.false_eq_true, if_false]
        exact render_type tbl (t := t) h.1 hw.1.2
    obtain ⟨a, ha, hla⟩ := key
    refine ⟨_, by rw [argsToBuffer, ha, hs']; rfl, ?_, ?_⟩
    · rw [toksArgs, gt_eq_decide]
      simp only [List.append_assoc]
      refine LexAny.append lexAny_sep (LexAny.append (lexAny_paramName hw.1.1) ?_)
      exact hla.append hl' (fun rest hd => (hsep (by omega)).delim (by decide) hd)
    · intro hi; right; simp [hi]
end

end Gopoet
