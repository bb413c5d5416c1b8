import Verif.Spec.DeclStands
import Verif.Proof.DeclLemmas
import Verif.Proof.ParseExact
/-! Only the text of declarations that can be written is read as the declarations it was made from. -/

namespace Gopoet

/-! ### Lines -/

/-- One line that `P` parses as `a` if and only if `good`. If it parses it as something that looks like
`a` it does so as well. -/
def LineX {α β σ} (P : Nat → List Tok → Option (α × List Tok)) (app : α → β → β) (sh : β → σ)
    (s : GoString) (a : α) (good : Prop) : Prop :=
  ∃ ts, Toks false s (ts ++ [.semi]) ∧
    (∃ x l, ts = x :: l ∧ x ≠ .rbrace ∧ x ≠ .rparen) ∧
    (good → ∀ f rest, 4 * ts.length ≤ f → P f (ts ++ .semi :: rest) = some (a, .semi :: rest)) ∧
    ∀ f rest a' r l l', 4 * ts.length ≤ f → P f (ts ++ .semi :: rest) = some (a', r) →
      sh (app a' l') = sh (app a l) → good

section
variable {α β σ : Type} {P : Nat → List Tok → Option (α × List Tok)} {app : α → β → β} {sh : β → σ}
  {s : GoString} {a : α} {good good' : Prop}

theorem LineX.comment (h : LineX P app sh s a good) (c : GoString) :
    LineX P app sh (writeComment c ++ s) a good := by
  obtain ⟨ts, h1, h2⟩ := h
  exact ⟨ts, (Toks.comment c).append h1, h2⟩

theorem LineX.newline (h : LineX P app sh s a good) : LineX P app sh (s ++ b! "\n") a good := by
  obtain ⟨ts, h1, h2⟩ := h
  exact ⟨ts, by simpa using h1.append Toks.newline, h2⟩

theorem LineX.congr (h : LineX P app sh s a good) (hg : good ↔ good') : LineX P app sh s a good' := by
  rwa [← propext hg]

/-- Lines that `Q` parses as `l`, up to and including the token `c`, if and only if `good`. -/
def LinesX {β σ} (Q : Nat → List Tok → Option (β × List Tok)) (sh : β → σ) (c : Tok) (s : GoString) (l : β)
    (good : Prop) : Prop :=
  ∃ ts, Toks false s ts ∧
    (good → ∀ f rest, 4 * ts.length + 4 ≤ f → Q f (ts ++ c :: rest) = some (l, rest)) ∧
    ∀ f rest l' r, 4 * ts.length + 4 ≤ f → Q f (ts ++ c :: rest) = some (l', r) → sh l' = sh l → good

theorem LinesX.congr {Q : Nat → List Tok → Option (β × List Tok)} {c : Tok} {l : β}
    (h : LinesX Q sh c s l good) (hg : good ↔ good') : LinesX Q sh c s l good' := by
  rwa [← propext hg]

theorem LinesX.cons {Q : Nat → List Tok → Option (β × List Tok)} {c : Tok} {s' : GoString} {l : β}
    (hc : c = .rbrace ∨ c = .rparen)
    (hQ : ∀ f toks a r, toks.head? ≠ some c → P f toks = some (a, .semi :: r) →
      Q (f + 1) toks = (Q f r).map fun x => (app a x.1, x.2))
    (hQ' : ∀ f toks l' r, toks.head? ≠ some c → Q (f + 1) toks = some (l', r) →
      ∃ a' r' l'', P f toks = some (a', r') ∧ l' = app a' l'')
    (hsh : ∀ a l l', sh (app a l) = sh (app a l') → sh l = sh l')
    (h : LineX P app sh s a good) (h' : LinesX Q sh c s' l good') :
    LinesX Q sh c (s ++ s') (app a l) (good ∧ good') := by
  obtain ⟨ts, h1, ⟨x, l', rfl, hx1, hx2⟩, h3, h4⟩ := h
  obtain ⟨ts', h1', h3', h4'⟩ := h'
  refine ⟨_, h1.append h1', ?_, ?_⟩
  · rintro ⟨hg, hg'⟩ f rest hf
    simp only [List.length_append, List.length_cons, List.length_nil] at hf
    obtain ⟨f, rfl⟩ : ∃ g, f = g + 1 := ⟨f - 1, by omega⟩
    have := h3 hg f (ts' ++ c :: rest) (by simp; omega)
    rw [show (x :: l' ++ [Tok.semi] ++ ts') ++ c :: rest = x :: l' ++ .semi :: (ts' ++ c :: rest) by simp]
    rw [hQ _ _ _ _ (by rcases hc with rfl | rfl <;> simpa) this, h3' hg' f rest (by omega)]
    rfl
  · intro f rest u r hf hp hu
    simp only [List.length_append, List.length_cons, List.length_nil] at hf
    obtain ⟨f, rfl⟩ : ∃ g, f = g + 1 := ⟨f - 1, by omega⟩
    rw [show (x :: l' ++ [Tok.semi] ++ ts') ++ c :: rest = x :: l' ++ .semi :: (ts' ++ c :: rest) by simp] at hp
    have hh : (x :: l' ++ .semi :: (ts' ++ c :: rest)).head? ≠ some c := by
      rcases hc with rfl | rfl <;> simpa
    obtain ⟨a', r', l'', hp', rfl⟩ := hQ' _ _ _ _ hh hp
    have hg : good := h4 f _ a' r' l l'' (by simp; omega) hp' hu
    have hp3 := h3 hg f (ts' ++ c :: rest) (by simp; omega)
    rw [hQ _ _ _ _ hh hp3] at hp
    rw [hp3] at hp'
    cases hp'
    cases hq : Q f (ts' ++ c :: rest) with
    | none => rw [hq] at hp; simp at hp
    | some y =>
      obtain ⟨l3, r3⟩ := y
      rw [hq] at hp
      simp only [Option.map_some, Option.some.injEq, Prod.mk.injEq] at hp
      rw [← hp.1] at hu
      exact ⟨hg, h4' f rest l3 r3 (by omega) hq (hsh _ _ _ hu)⟩

end

theorem shapeFields_append {N : Type} : ∀ (a b : List (GoField N)),
    shapeFields (a ++ b) = shapeFields a ++ shapeFields b
  | [], _ => rfl
  | .mk _ _ _ :: a, b => by simp [shapeFields, shapeFields_append a b]

/-- `LineX` for fields. -/
abbrev FieldX (s : GoString) (g : GoField SynName) (good : Prop) : Prop :=
  LineX parseField (fun a b => a ++ b) shapeFields s [g] good

/-- `LinesX` for fields. -/
abbrev FieldsX (s : GoString) (l : List (GoField SynName)) (good : Prop) : Prop :=
  LinesX parseFields shapeFields .rbrace s l good

/-- `LineX` for elements of interfaces. -/
abbrev ElemX (s : GoString) (g : GoElem SynName) (good : Prop) : Prop :=
  LineX parseElem (fun a b => a :: b) shapeElems s g good

/-- `LinesX` for elements of interfaces. -/
abbrev ElemsX (s : GoString) (l : List (GoElem SynName)) (good : Prop) : Prop :=
  LinesX parseElems shapeElems .rbrace s l good

theorem fieldsX_cons {s s' : GoString} {g : GoField SynName} {l : List (GoField SynName)} {good good' : Prop}
    (h : FieldX s g good) (h' : FieldsX s' l good') : FieldsX (s ++ s') (g :: l) (good ∧ good') :=
  LinesX.cons (app := fun a b => a ++ b) (Or.inl rfl) (by
    intro f toks a r hh hp
    rw [parseFields_step hh, hp]
    cases hq : parseFields f r <;> simp [hq]) (by
    intro f toks l' r hh hp
    rw [parseFields_step hh] at hp
    simp only [Option.bind_eq_bind, Option.bind_eq_some_iff, Prod.exists] at hp
    obtain ⟨a, r', h1, h2⟩ := hp
    refine ⟨a, r', ?_⟩
    split at h2
    · simp only [Option.bind_eq_some_iff, Option.some.injEq, Prod.mk.injEq, Prod.exists] at h2
      obtain ⟨l'', _, _, rfl, _⟩ := h2
      exact ⟨l'', h1, rfl⟩
    · simp only [Option.some.injEq, Prod.mk.injEq] at h2
      exact ⟨[], h1, by simp [h2.1]⟩
    · simp at h2) (by
    intro a l l' h
    simpa [shapeFields_append] using h) h h'

theorem shapeElems_cons {N : Type} {a : GoElem N} {l l' : List (GoElem N)}
    (h : shapeElems (a :: l) = shapeElems (a :: l')) : shapeElems l = shapeElems l' := by
  cases a <;> simpa [shapeElems] using h

theorem elemsX_cons {s s' : GoString} {g : GoElem SynName} {l : List (GoElem SynName)} {good good' : Prop}
    (h : ElemX s g good) (h' : ElemsX s' l good') : ElemsX (s ++ s') (g :: l) (good ∧ good') :=
  LinesX.cons (app := fun a b => a :: b) (Or.inl rfl) (by
    intro f toks a r hh hp
    rw [parseElems_step hh, hp]
    cases hq : parseElems f r <;> simp [hq]) (by
    intro f toks l' r hh hp
    rw [parseElems_step hh] at hp
    simp only [Option.bind_eq_bind, Option.bind_eq_some_iff, Prod.exists] at hp
    obtain ⟨a, r', h1, h2⟩ := hp
    refine ⟨a, r', ?_⟩
    split at h2
    · simp only [Option.bind_eq_some_iff, Option.some.injEq, Prod.mk.injEq, Prod.exists] at h2
      obtain ⟨l'', _, _, rfl, _⟩ := h2
      exact ⟨l'', h1, rfl⟩
    · simp only [Option.some.injEq, Prod.mk.injEq] at h2
      exact ⟨[], h1, by simp [h2.1]⟩
    · simp at h2) (fun _ _ _ => shapeElems_cons) h h'

theorem fieldsX_nil : FieldsX [] [] True := ⟨[], Toks.nil, by
  intro _ f rest hf
  obtain ⟨f, rfl⟩ : ∃ g, f = g + 1 := ⟨f - 1, by omega⟩
  rfl, fun _ _ _ _ _ _ _ => trivial⟩

theorem elemsX_nil : ElemsX [] [] True := ⟨[], Toks.nil, by
  intro _ f rest hf
  obtain ⟨f, rfl⟩ : ∃ g, f = g + 1 := ⟨f - 1, by omega⟩
  rfl, fun _ _ _ _ _ _ _ => trivial⟩

/-! ### Types -/

/-- The text is a type on the rest of the line and, possibly, following lines, read as `t` if and only
if `good`. -/
def TypeTextX (s : GoString) (t : SynType) (good : Prop) : Prop :=
  ∃ ts, (∀ b, Toks b s (ts ++ [.semi])) ∧ (∃ x l, ts = x :: l ∧ typeStart x = true) ∧
    (good → ∀ f rest, 4 * ts.length ≤ f → Follow rest → parseType f (ts ++ rest) = some (t, rest)) ∧
    ∀ f rest u r, 4 * ts.length ≤ f → Follow rest → parseType f (ts ++ rest) = some (u, r) →
      u.shape = t.shape → good

theorem TypeTextX.congr {s : GoString} {t : SynType} {good good' : Prop} (h : TypeTextX s t good)
    (hg : good ↔ good') : TypeTextX s t good' := by
  rwa [← propext hg]

theorem typeTextX_line {tbl : Nat → Bool} {t : TypeName} (hv : t.valid = true) (hw : t.wellNamed = true) :
    ∃ s, typeNameToBuffer tbl t = .ok s ∧
      TypeTextX (b! " " ++ s ++ b! "\n") t.syntax (t.unproblematic = true) := by
  obtain ⟨s, hs, hl⟩ := render_type tbl hv hw
  refine ⟨s, hs, t.toks, fun b => ?_, toks_start hv, fun hu f rest hf hr => parse_type hv hw hu hf hr,
    fun f rest u r hf hr hp hu => exact_type hv hw hf hr hp hu⟩
  refine Toks.line ?_ (closed_type hv) b
  intro rest tl hd hr
  exact (hl rest tl hd hr).space

theorem typeTextX_struct {s : GoString} {l : List (GoField SynName)} {good : Prop}
    (h : FieldsX s l good) : TypeTextX (b! " struct {\n" ++ s ++ b! "}\n") (.struct l) good := by
  obtain ⟨ts, ⟨ls, h1, h2⟩, h3, h4⟩ := h
  refine ⟨.kw .kStruct :: .lbrace :: (ts ++ [.rbrace]), fun b => ?_, ⟨_, _, rfl, rfl⟩, ?_, ?_⟩
  · refine ⟨.kw .kStruct :: .lbrace :: .nl :: (ls ++ [.rbrace, .nl]), ?_, ?_⟩
    · intro rest tl hr
      simp only [List.append_assoc, List.cons_append, List.nil_append]
      refine Lex.space (Lex.kw (w := b! "struct") (by decide) (delim_cons (by decide)) (Lex.space
        (Lex.punct' (by decide) (Lex.newline ?_))))
      exact h1 _ _ (Lex.punct' (by decide) hr.newline)
    · rw [semiStep_cons (by simp), semiStep_cons (by simp)]
      simp [semiStep, endsStatement, semiStep_append, h2]
  · intro hg f rest hf hr
    obtain ⟨f, rfl⟩ : ∃ g, f = g + 1 := ⟨f - 1, by simp at hf; omega⟩
    have := h3 hg f rest (by simp at hf; omega)
    simp only [List.cons_append, List.append_assoc, List.nil_append]
    rw [parseType]; simp only [this]; rfl
  · intro f rest u r hf hr hp hu
    obtain ⟨f, rfl⟩ : ∃ g, f = g + 1 := ⟨f - 1, by simp at hf; omega⟩
    simp only [List.cons_append, List.append_assoc, List.nil_append] at hp
    change (do let (fs, r) ← parseFields f (ts ++ Tok.rbrace :: rest); some (GoType.struct fs, r)) = _ at hp
    obtain ⟨t, ht, rfl⟩ := of_map hp
    simp only [GoType.shape, GoType.struct.injEq] at hu
    exact h4 f rest t r (by simp at hf; omega) ht hu

theorem typeTextX_iface {s : GoString} {l : List (GoElem SynName)} {good : Prop}
    (h : ElemsX s l good) : TypeTextX (b! " interface {\n" ++ s ++ b! "}\n") (.iface l) good := by
  obtain ⟨ts, ⟨ls, h1, h2⟩, h3, h4⟩ := h
  refine ⟨.kw .kInterface :: .lbrace :: (ts ++ [.rbrace]), fun b => ?_, ⟨_, _, rfl, rfl⟩, ?_, ?_⟩
  · refine ⟨.kw .kInterface :: .lbrace :: .nl :: (ls ++ [.rbrace, .nl]), ?_, ?_⟩
    · intro rest tl hr
      simp only [List.append_assoc, List.cons_append, List.nil_append]
      refine Lex.space (Lex.kw (w := b! "interface") (by decide) (delim_cons (by decide)) (Lex.space
        (Lex.punct' (by decide) (Lex.newline ?_))))
      exact h1 _ _ (Lex.punct' (by decide) hr.newline)
    · rw [semiStep_cons (by simp), semiStep_cons (by simp)]
      simp [semiStep, endsStatement, semiStep_append, h2]
  · intro hg f rest hf hr
    obtain ⟨f, rfl⟩ : ∃ g, f = g + 1 := ⟨f - 1, by simp at hf; omega⟩
    have := h3 hg f rest (by simp at hf; omega)
    simp only [List.cons_append, List.append_assoc, List.nil_append]
    rw [parseType]; simp only [this]; rfl
  · intro f rest u r hf hr hp hu
    obtain ⟨f, rfl⟩ : ∃ g, f = g + 1 := ⟨f - 1, by simp at hf; omega⟩
    simp only [List.cons_append, List.append_assoc, List.nil_append] at hp
    change (do let (fs, r) ← parseElems f (ts ++ Tok.rbrace :: rest); some (GoType.iface fs, r)) = _ at hp
    obtain ⟨t, ht, rfl⟩ := of_map hp
    simp only [GoType.shape, GoType.iface.injEq] at hu
    exact h4 f rest t r (by simp at hf; omega) ht hu

/-! ### Fields and interface elements -/

theorem lineX_field {tbl : Nat → Bool} {t : TypeName} {s n tag : GoString} (hv : t.valid = true)
    (hw : t.wellNamed = true) (hs : typeNameToBuffer tbl t = .ok s)
    (hn : n = [] ∧ t.embeddable = true ∨ isIdent n = true) :
    FieldX ((if n ≠ [] then n ++ b! " " else []) ++ s ++ fieldTagText tbl tag ++ b! "\n")
      (.mk (optName n) t.syntax (optName tag)) (t.unproblematic = true) := by
  obtain ⟨s', hs', hl⟩ := render_type tbl hv hw
  cases hs.symm.trans hs'
  obtain ⟨x, l, hx, hxs⟩ := toks_start hv
  have hl2 := hl.append (lexAs_tag tbl tag) (delim_tag tbl tag)
  have hcl := closed_tag (closed_type hv) tag
  have hpos : 0 < t.toks.length := by rw [hx]; simp
  by_cases h0 : n = []
  · have he : t.embeddable = true := by
      rcases hn with ⟨_, he⟩ | hi
      · exact he
      · rw [h0] at hi; simp [isIdent] at hi
    refine ⟨t.toks ++ (if tag = [] then [] else [.str tag]), ?_, ⟨x, _, by rw [hx]; rfl, ?_⟩, ?_, ?_⟩
    · have := Toks.line hl2 hcl false
      simpa [h0] using this
    · constructor <;> (rintro rfl; simp [typeStart] at hxs)
    · intro _ f rest hf
      simp only [List.length_append] at hf
      obtain ⟨f, rfl⟩ : ∃ g, f = g + 1 := ⟨f - 1, by omega⟩
      rw [List.append_assoc, parseField_embedded he (Or.inl ⟨_, rfl⟩), h0]
      rfl
    · intro _ _ _ _ _ _ _ _ _
      match t, he with
      | .basic _, _ => rfl
      | .named _, _ => rfl
      | .ptr (.basic _), _ => rfl
      | .ptr (.named _), _ => rfl
  · have hi : isIdent n = true := by
      rcases hn with ⟨hn, _⟩ | hi
      · exact absurd hn h0
      · exact hi
    refine ⟨.ident n :: (t.toks ++ (if tag = [] then [] else [.str tag])), ?_,
      ⟨_, _, rfl, by simp, by simp⟩, ?_, ?_⟩
    · have := Toks.line (LexAny.append (s := n ++ b! " ") (ts := [.ident n]) (by
        intro rest tl hr
        rw [List.append_assoc]
        exact Lex.ident hi (delim_cons (by decide)) hr.space) hl2) (Closed.cons (by simp) hcl) false
      simpa [h0] using this
    · intro hu f rest hf
      simp only [List.length_append, List.length_cons] at hf
      obtain ⟨f, rfl⟩ : ∃ g, f = g + 1 := ⟨f - 1, by omega⟩
      rw [List.cons_append, List.append_assoc, hx, List.cons_append, parseField_named hxs,
        ← List.cons_append, ← hx]
      rw [parse_type hv hw hu (by omega) (follow_tag (Or.inl ⟨_, rfl⟩))]
      simp only [Option.bind_eq_bind, Option.bind_some]
      rw [optTag_of (Or.inl ⟨_, rfl⟩)]
      simp [optName, h0]
    · intro f rest a r l1 l2 hf hp hu
      simp only [List.length_append, List.length_cons] at hf
      obtain ⟨f, rfl⟩ : ∃ g, f = g + 1 := ⟨f - 1, by omega⟩
      rw [List.cons_append, List.append_assoc, hx, List.cons_append, parseField_named hxs,
        ← List.cons_append, ← hx] at hp
      simp only [Option.bind_eq_bind, Option.bind_eq_some_iff, Prod.exists, Option.some.injEq,
        Prod.mk.injEq] at hp
      obtain ⟨u, r1, hp, rfl, -⟩ := hp
      simp only [List.cons_append, List.nil_append, shapeFields, List.cons.injEq, GoField.mk.injEq] at hu
      exact exact_type hv hw (by omega) (follow_tag (Or.inl ⟨_, rfl⟩)) hp hu.1.2.1

/-- A field whose type is written on several lines: the tag is on a line of its own, where it is no tag. -/
theorem lineX_block {tbl : Nat → Bool} {s n tag : GoString} {t : SynType} {good : Prop}
    (h : TypeTextX s t good) (hi : isIdent n = true) :
    FieldX (n ++ b! " " ++ s ++ fieldTagText tbl tag ++ b! "\n") (.mk (some n) t (optName tag))
      (good ∧ tag = []) := by
  obtain ⟨ts, h1, ⟨x, l, hx, hxs⟩, h2, h3⟩ := h
  have h4 : Toks false (n ++ b! " " ++ s) (.ident n :: ts ++ [.semi]) := by
    have := Toks.before (b := false) (b' := true) (s := n ++ b! " ") (ts := [.ident n]) (by
      intro rest tl hr
      rw [List.append_assoc]
      exact Lex.ident hi (delim_cons (by decide)) hr.space) rfl (h1 true)
    simpa using this
  have h5 : Toks false (fieldTagText tbl tag ++ b! "\n") (if tag = [] then [] else [.str tag, .semi]) := by
    by_cases h0 : tag = []
    · simpa [h0, fieldTagText] using Toks.newline
    · have := Toks.line (lexAs_tag tbl tag) (by simp only [h0, if_false]; exact closed_one rfl) false
      simpa [h0] using this
  refine ⟨.ident n :: ts ++ (if tag = [] then [] else [.semi, .str tag]), ?_,
    ⟨_, _, rfl, by simp, by simp⟩, ?_, ?_⟩
  · have := h4.append h5
    by_cases h0 : tag = []
    · simpa [h0] using this
    · simpa [h0] using this
  · rintro ⟨hg, rfl⟩ f rest hf
    simp only [if_true, List.append_nil, List.length_cons] at hf ⊢
    obtain ⟨f, rfl⟩ : ∃ g, f = g + 1 := ⟨f - 1, by omega⟩
    rw [List.cons_append, hx, List.cons_append, parseField_named hxs, ← List.cons_append, ← hx]
    rw [h2 hg f (.semi :: rest) (by omega) trivial]
    rfl
  · intro f rest a r l1 l2 hf hp hu
    simp only [List.length_append, List.length_cons] at hf
    obtain ⟨f, rfl⟩ : ∃ g, f = g + 1 := ⟨f - 1, by omega⟩
    obtain ⟨rest', hr⟩ : ∃ rest', (if tag = [] then [] else [Tok.semi, .str tag]) ++ .semi :: rest
        = .semi :: rest' := by
      by_cases h0 : tag = [] <;> simp [h0]
    rw [List.append_assoc, hr, List.cons_append, hx, List.cons_append, parseField_named hxs,
      ← List.cons_append, ← hx] at hp
    simp only [Option.bind_eq_bind, Option.bind_eq_some_iff, Prod.exists, Option.some.injEq,
      Prod.mk.injEq] at hp
    obtain ⟨u, r1, hp, rfl, -⟩ := hp
    simp only [List.cons_append, List.nil_append, shapeFields, List.cons.injEq, GoField.mk.injEq] at hu
    have hg := h3 f (.semi :: rest') u r1 (by omega) trivial hp hu.1.2.1
    rw [h2 hg f (.semi :: rest') (by omega) trivial] at hp
    cases hp
    refine ⟨hg, ?_⟩
    have := hu.1.2.2
    by_contra h0
    simp [optTag, optName, h0] at this

theorem lineX_embed {e : InterfaceEmbed} (h : e.type.wellNamed = true) :
    ElemX e.text (.embed e.type.syntaxName) True := by
  obtain ⟨ts, h1, h2, h3⟩ := line_embed h
  exact ⟨ts, h1, h2, fun _ => h3, fun _ _ _ _ _ _ _ _ _ => trivial⟩

theorem lineX_method {env : Env} {m : InterfaceMethod} (hn : isIdent m.name = true)
    (hv : m.signature.valid = true) (hw : m.signature.wellNamed = true) :
    ∃ s, m.text env = .ok s ∧
      ElemX s (.method m.name m.signature.syntax) (m.signature.unproblematic = true) := by
  obtain ⟨w, hs, hl, w', rfl⟩ := render_sig env.isPrint hv hw
  refine ⟨_, by rw [InterfaceMethod.text, hs]; rfl, ?_⟩
  rw [List.append_assoc, List.append_assoc]
  refine LineX.comment ?_ _
  obtain ⟨l, hx⟩ : ∃ l, m.signature.toks = .lparen :: l := by
    match m.signature with
    | ⟨args, results, v⟩ => exact ⟨_, rfl⟩
  refine ⟨.ident m.name :: m.signature.toks, ?_, ⟨_, _, rfl, by simp, by simp⟩, ?_, ?_⟩
  · have := Toks.line (b := false) (s := m.name ++ 40 :: w') (ts := .ident m.name :: m.signature.toks) (by
      intro rest tl hd hr
      rw [List.append_assoc]
      exact Lex.ident hn (delim_cons (by decide)) (hl rest tl hd hr))
      (Closed.cons (by simp) (closed_sig hv))
    simpa using this
  · intro hu f rest hf
    simp only [List.length_cons] at hf
    obtain ⟨f, rfl⟩ : ∃ g, f = g + 1 := ⟨f - 1, by omega⟩
    have hp := parse_sig hv hw hu (f := f) (rest := .semi :: rest) (by omega) trivial
    rw [hx] at hp ⊢
    rw [List.cons_append, List.cons_append, parseElem]
    rw [List.cons_append] at hp
    simp only [hp]; rfl
  · intro f rest a r l1 l2 hf hp hu
    simp only [List.length_cons] at hf
    obtain ⟨f, rfl⟩ : ∃ g, f = g + 1 := ⟨f - 1, by omega⟩
    have e : parseElem (f + 1) (.ident m.name :: m.signature.toks ++ .semi :: rest) =
        (do let (s, r) ← parseSig f (m.signature.toks ++ .semi :: rest)
            some (GoElem.method m.name s, r)) := by
      rw [hx]; rfl
    rw [e] at hp
    obtain ⟨t, ht, rfl⟩ := of_map hp
    simp only [shapeElems, List.cons.injEq, GoElem.method.injEq, true_and] at hu
    exact exact_sig hv hw (by omega) (rest := .semi :: rest) trivial ht hu.1

/-! ### Bodies made of types -/

theorem embedsX_text : ∀ {es : List Symbol}, es.all Symbol.wellNamed = true → ∀ {s' l good},
    ElemsX s' l good →
    ∃ s, concatText (fun e => .ok (InterfaceEmbed.text { type := e })) es = .ok s ∧
      ElemsX (s ++ s') (es.map (fun s => .embed s.syntaxName) ++ l) good
  | [], _, s', l, _, h' => ⟨[], rfl, h'⟩
  | e :: es, h, s', l, _, h' => by
    simp only [List.all_cons, Bool.and_eq_true] at h
    obtain ⟨s, hs, hl⟩ := embedsX_text h.2 h'
    refine ⟨_, concatText_cons rfl hs, ?_⟩
    rw [List.append_assoc]
    exact (elemsX_cons (lineX_embed (e := { type := e }) h.1) hl).congr (by simp)

theorem methodsX_text {env : Env} : ∀ {ms : List MethodType}, validMethods ms = true →
    wellNamedMethods ms = true →
    ∃ s, concatText (fun m : MethodType => InterfaceMethod.text env
        { name := m.name, signature := m.signature }) ms = .ok s ∧
      ElemsX s (syntaxMethods ms) (unproblematicMethods ms = true)
  | [], _, _ => ⟨[], rfl, elemsX_nil.congr (by simp [unproblematicMethods])⟩
  | ⟨n, sg⟩ :: ms, h, hw => by
    simp only [validMethods, wellNamedMethods, Bool.and_eq_true] at h hw
    obtain ⟨s, hs, hl⟩ := methodsX_text (env := env) h.2 hw.2
    obtain ⟨w, hws, hwl⟩ := lineX_method (env := env) (m := { name := n, signature := sg })
      hw.1.1 h.1 hw.1.2
    exact ⟨_, concatText_cons hws hs, (elemsX_cons hwl hl).congr (by simp [unproblematicMethods])⟩

theorem multiline_line {t : TypeName} (hb : t.isBlock = false) : t.multiline = t.unproblematic := by
  cases t <;> first | rfl | simp [TypeName.isBlock] at hb

mutual
theorem underlyingX_text {env : Env} {h : Heap} : ∀ {t : TypeName}, t.valid = true →
    t.wellNamed = true →
    ∃ s, underlyingText env h t = .ok s ∧ TypeTextX s t.syntax (t.multiline = true)
  | .struct fs, hv, hw => by
    obtain ⟨s, hs, hl⟩ := fieldTypesX_text (env := env) (h := h) (fs := fs) hv hw
    exact ⟨_, by rw [underlyingText, hs]; rfl, typeTextX_struct hl⟩
  | .interface ms es, hv, hw => by
    simp only [TypeName.wellNamed, Bool.and_eq_true] at hw
    obtain ⟨s, hs, hl⟩ := methodsX_text (env := env) (ms := ms) hv hw.1
    obtain ⟨s', hs', hl'⟩ := embedsX_text hw.2 hl
    exact ⟨_, by rw [underlyingText, hs, hs']; rfl, typeTextX_iface hl'⟩
  | .nil, h, _ => by simp [TypeName.valid] at h
  | .basic _, hv, hw | .named _, hv, hw | .ptr _, hv, hw | .slice _, hv, hw
  | .array _ _, hv, hw | .map _ _, hv, hw | .chan _ _, hv, hw
  | .func _, hv, hw => by
    obtain ⟨s, hs, hl⟩ := typeTextX_line (tbl := env.isPrint) hv hw
    exact ⟨_, by rw [underlyingText.eq_def]; simp only [hs]; rfl, hl⟩
theorem fieldTypesX_text {env : Env} {h : Heap} : ∀ {fs : List FieldType}, validFields fs = true →
    wellNamedFields fs = true →
    ∃ s, fieldTypesText env h fs = .ok s ∧ FieldsX s (syntaxFields fs) (multilineFields fs = true)
  | [], _, _ => ⟨[], rfl, fieldsX_nil.congr (by simp [multilineFields])⟩
  | ⟨n, t, tag⟩ :: fs, hv, hw => by
    simp only [validFields, wellNamedFields, Bool.and_eq_true, Bool.or_eq_true,
      beq_iff_eq] at hv hw
    obtain ⟨s', hs', hl'⟩ := fieldTypesX_text (env := env) (h := h) (fs := fs) hv.2 hw.2
    obtain ⟨s, hs, hl⟩ := underlyingX_text (env := env) (h := h) (t := t) hv.1 hw.1.2
    cases hb : t.isBlock with
    | true =>
      have hi : isIdent n = true := by
        rcases hw.1.1 with ⟨_, h⟩ | h
        · cases t <;> simp [TypeName.isBlock, TypeName.embeddable] at hb h
        · exact h
      have h0 : n ≠ [] := by rintro rfl; simp [isIdent] at hi
      refine ⟨(n ++ b! " " ++ s ++ fieldTagText env.isPrint tag ++ b! "\n") ++ s', ?_, ?_⟩
      · cases t <;> simp only [TypeName.isBlock, Bool.false_eq_true] at hb <;>
          (rw [fieldTypesText, hs, hs', if_pos h0]; simp)
      · rw [syntaxFields, show optName n = some n by simp [optName, h0]]
        exact (fieldsX_cons (lineX_block hl hi) hl').congr (by
          simp [multilineFields, hb, and_comm])
    | false =>
      obtain ⟨w, hws, _⟩ := render_type env.isPrint hv.1 hw.1.2
      have hline := lineX_field (tag := tag) hv.1 hw.1.2 hws hw.1.1
      refine ⟨_, ?_, (fieldsX_cons hline hl').congr (by simp [multilineFields, hb, multiline_line hb])⟩
      rw [fieldTypesText, hs', ← fprintf_type (h := h) hws]
      · rfl
      · rintro rfl; simp [TypeName.valid] at hv
      · rintro _ rfl; simp [TypeName.isBlock] at hb
      · rintro _ _ rfl; simp [TypeName.isBlock] at hb
end

/-! ### Bodies of specs -/

theorem elemX_text {env : Env} {h : Heap} {e : IfaceElem} {g : GoElem SynName} (he : ElemStands h e g) :
    ∃ s, IfaceElem.text env h e = .ok s ∧ ElemX s g (ElemOf h e g) := by
  cases he with
  | embed hp hw =>
    exact ⟨_, by rw [IfaceElem.text, deref, hp]; rfl,
      (lineX_embed hw).congr ⟨fun _ => .embed hp hw, fun _ => trivial⟩⟩
  | @method p m hp hn hv hw =>
    obtain ⟨s, hs, hl⟩ := lineX_method (env := env) hn hv hw
    refine ⟨s, by rw [IfaceElem.text, deref, hp]; exact hs, hl.congr ⟨fun hu => .method hp hn hv hw hu, ?_⟩⟩
    generalize hg : GoElem.method m.name m.signature.syntax = g
    intro ho
    cases ho with
    | method hp' _ _ _ hu' => rw [hp] at hp'; cases hp'; exact hu'

theorem elemsX_text {env : Env} {h : Heap} {es : List IfaceElem} {l : List (GoElem SynName)}
    (he : List.Forall₂ (ElemStands h) es l) :
    ∃ s, concatText (IfaceElem.text env h) es = .ok s ∧ ElemsX s l (ElemsOf h es l) := by
  induction he with
  | nil => exact ⟨[], rfl, elemsX_nil.congr ⟨fun _ => .nil, fun _ => trivial⟩⟩
  | cons he _ ih =>
    obtain ⟨x, hx, hl⟩ := elemX_text (env := env) he
    obtain ⟨y, hy, hl'⟩ := ih
    refine ⟨_, concatText_cons hx hy, (elemsX_cons hl hl').congr ⟨fun h => .cons h.1 h.2, ?_⟩⟩
    intro h
    cases h with
    | cons h1 h2 => exact ⟨h1, h2⟩

theorem fieldOf_name_iff {h : Heap} {f : FieldSpec} {t : TypeName} (ht : f.type = .name t)
    (hv : t.valid = true) (hw : t.wellNamed = true)
    (hn : f.name = [] ∧ t.embeddable = true ∨ isIdent f.name = true) :
    FieldOf h f (.mk (optName f.name) t.syntax (optName f.tag)) ↔
      (t.multiline = true ∧ (t.isBlock = true → f.tag = [])) := by
  constructor
  · generalize hg : GoField.mk (optName f.name) t.syntax (optName f.tag) = g
    intro ho
    cases ho with
    | line h1 h2 h3 =>
      rw [ht] at h1; cases h1
      exact ⟨by rw [multiline_line h2]; exact h3.2.2, by rw [h2]; simp⟩
    | block h1 h2 h3 h4 h5 h6 h7 => rw [ht] at h1; cases h1; exact ⟨h5, fun _ => h7⟩
    | named h1 => rw [ht] at h1; cases h1
    | unnamed h1 => rw [ht] at h1; cases h1
  · rintro ⟨hm, htag⟩
    cases hb : t.isBlock with
    | false => exact .line ht hb ⟨hv, hw, by rw [← multiline_line hb]; exact hm⟩ hn
    | true =>
      have hi : isIdent f.name = true := by
        rcases hn with ⟨_, h⟩ | h
        · cases t <;> simp [TypeName.isBlock, TypeName.embeddable] at hb h
        · exact h
      have h0 : f.name ≠ [] := by intro e; rw [e] at hi; simp [isIdent] at hi
      have := FieldOf.block (h := h) ht hb hv hw hm hi (htag hb)
      simpa [optName, h0, htag hb] using this

theorem bodyOf_struct_iff {h : Heap} {ts : TypeSpec} {fs : List FieldType} {l : List (GoField SynName)}
    (hu : ts.underlying = .struct fs) : BodyOf h ts (.struct l) ↔ FieldsOf h ts.structBody l := by
  constructor
  · generalize hg : GoType.struct l = g
    intro hb
    cases hb with
    | struct _ h1 => cases hg; exact h1
    | iface h1 => rw [hu] at h1; cases h1
    | other h1 => rw [hu] at h1; simp [TypeName.isBlock] at h1
  · exact .struct hu

theorem bodyOf_iface_iff {h : Heap} {ts : TypeSpec} {ms : List MethodType} {es : List Symbol}
    {l : List (GoElem SynName)} (hu : ts.underlying = .interface ms es) :
    BodyOf h ts (.iface l) ↔ ElemsOf h ts.interfaceBody l := by
  constructor
  · generalize hg : GoType.iface l = g
    intro hb
    cases hb with
    | iface _ h1 => cases hg; exact h1
    | struct h1 => rw [hu] at h1; cases h1
    | other h1 => rw [hu] at h1; simp [TypeName.isBlock] at h1
  · exact .iface hu

theorem bodyOf_other_iff {h : Heap} {ts : TypeSpec} (hb : ts.underlying.isBlock = false)
    (hv : ts.underlying.valid = true) (hw : ts.underlying.wellNamed = true) :
    BodyOf h ts ts.underlying.syntax ↔ ts.underlying.unproblematic = true := by
  constructor
  · generalize hg : ts.underlying.syntax = g
    intro ho
    cases ho with
    | iface h1 => rw [h1] at hb; simp [TypeName.isBlock] at hb
    | struct h1 => rw [h1] at hb; simp [TypeName.isBlock] at hb
    | other _ h1 => exact h1.2.2
  · exact fun hu => .other hb ⟨hv, hw, hu⟩

theorem fieldOf_unnamed_iff {h : Heap} {f : FieldSpec} {q : Ptr} {ts : TypeSpec} {t : SynType}
    (ht : f.type = .spec q) (hq : h.types q = some ts) (h0 : ts.name = []) (hi : isIdent f.name = true) :
    FieldOf h f (.mk (some f.name) t (optName f.tag)) ↔ (BodyOf h ts t ∧ f.tag = []) := by
  constructor
  · generalize hg : GoField.mk (some f.name) t (optName f.tag) = g
    intro ho
    cases ho with
    | line h1 => rw [ht] at h1; cases h1
    | block h1 => rw [ht] at h1; cases h1
    | named h1 h2 h3 =>
      rw [ht] at h1; cases h1
      rw [hq] at h2; cases h2
      exact absurd h0 h3
    | unnamed h1 h2 h3 h4 h5 h6 =>
      rw [ht] at h1; cases h1
      rw [hq] at h2; cases h2
      simp only [GoField.mk.injEq, true_and] at hg
      exact ⟨hg.1 ▸ h4, h6⟩
  · rintro ⟨hb, htag⟩
    have := FieldOf.unnamed ht hq h0 hb hi htag
    simpa [htag, optName] using this

mutual
theorem bodyX_text {env : Env} {h : Heap} : ∀ {ts : TypeSpec} {t : SynType}, BodyStands h ts t →
    ∃ n s, (∀ fuel, n ≤ fuel → writeUnderlying env h fuel ts = .ok s) ∧ TypeTextX s t (BodyOf h ts t)
  | _, _, .struct hu hb => by
    obtain ⟨n, s, hs, hl⟩ := fieldsX_text (env := env) hb
    refine ⟨n + 1, _, ?_, (typeTextX_struct hl).congr (bodyOf_struct_iff hu).symm⟩
    intro fuel hf
    obtain ⟨fuel, rfl⟩ : ∃ g, fuel = g + 1 := ⟨fuel - 1, by omega⟩
    rw [writeUnderlying]
    simp only [hu, hs fuel (by omega)]
    rfl
  | _, _, .iface hu hb => by
    obtain ⟨s, hs, hl⟩ := elemsX_text (env := env) hb
    refine ⟨1, _, ?_, (typeTextX_iface hl).congr (bodyOf_iface_iff hu).symm⟩
    intro fuel hf
    obtain ⟨fuel, rfl⟩ : ∃ g, fuel = g + 1 := ⟨fuel - 1, by omega⟩
    rw [writeUnderlying]
    simp only [hu, hs]
    rfl
  | ts, _, .other hb hv hw => by
    obtain ⟨s, hs, hl⟩ := typeTextX_line (tbl := env.isPrint) hv hw
    refine ⟨1, _, ?_, hl.congr (bodyOf_other_iff hb hv hw).symm⟩
    intro fuel hf
    obtain ⟨fuel, rfl⟩ : ∃ g, fuel = g + 1 := ⟨fuel - 1, by omega⟩
    rw [writeUnderlying]
    generalize ts.underlying = u at hs hb hv ⊢
    cases u <;> first | (simp [TypeName.isBlock] at hb; done) | (simp [TypeName.valid] at hv; done) |
      (simp only [hs]; rfl)
theorem fieldsX_text {env : Env} {h : Heap} : ∀ {ps : List Ptr} {l : List (GoField SynName)},
    FieldsStand h ps l →
    ∃ n s, (∀ fuel, n ≤ fuel → concatText (fun p => (deref h.fields p).bind fun f =>
        f.text env h (writeUnderlying env h fuel)) ps = .ok s) ∧ FieldsX s l (FieldsOf h ps l)
  | _, _, .nil => ⟨0, [], fun _ _ => rfl, fieldsX_nil.congr ⟨fun _ => .nil, fun _ => trivial⟩⟩
  | _, _, .cons hp hf hps => by
    obtain ⟨n, s, hs, hl⟩ := fieldX_text (env := env) hf
    obtain ⟨m, s', hs', hl'⟩ := fieldsX_text (env := env) hps
    refine ⟨max n m, _, ?_, (fieldsX_cons hl hl').congr ⟨fun h => .cons hp h.1 h.2, ?_⟩⟩
    · intro fuel hfu
      refine concatText_cons ?_ (hs' fuel (by omega))
      rw [deref, hp]; exact hs fuel (by omega)
    · intro h
      cases h with
      | cons h1 h2 h3 => rw [hp] at h1; cases h1; exact ⟨h2, h3⟩
theorem fieldX_text {env : Env} {h : Heap} : ∀ {f : FieldSpec} {g : GoField SynName}, FieldStands h f g →
    ∃ n s, (∀ fuel, n ≤ fuel → f.text env h (writeUnderlying env h fuel) = .ok s) ∧
      FieldX s g (FieldOf h f g)
  | f, _, .type (t := t) ht hv hw hn => by
    have hiff := fieldOf_name_iff (h := h) ht hv hw hn
    cases hb : t.isBlock with
    | false =>
      obtain ⟨w, hws, _⟩ := render_type env.isPrint hv hw
      refine ⟨0, _, ?_, ((lineX_field (tag := f.tag) hv hw hws hn).comment f.comment).congr (by
        rw [hiff, hb, multiline_line hb]; simp)⟩
      intro fuel _
      obtain ⟨k, hk, hk'⟩ := kind_line hv hb
      rw [FieldSpec.text, ht, fieldTypeText, hk]
      simp only [Outcome.bind, bind, hk', if_false, fprintf_type hws]
      simp [pure]
    | true =>
      obtain ⟨s, hs, hl⟩ := underlyingX_text (env := env) (h := h) hv hw
      have hi : isIdent f.name = true := by
        rcases hn with ⟨_, h⟩ | h
        · cases t <;> simp [TypeName.isBlock, TypeName.embeddable] at hb h
        · exact h
      have h0 : f.name ≠ [] := by intro e; rw [e] at hi; simp [isIdent] at hi
      have hx := (lineX_block (tbl := env.isPrint) (tag := f.tag) hl hi).comment f.comment
      rw [show some f.name = optName f.name by simp [optName, h0]] at hx
      refine ⟨0, _, ?_, hx.congr (by rw [hiff, hb]; simp)⟩
      intro fuel _
      obtain ⟨k, hk, hk'⟩ := kind_block hb
      rw [FieldSpec.text, ht, fieldTypeText, hk]
      simp only [Outcome.bind, bind, hk', if_true, hs]
      simp [pure, h0]
  | f, _, .named (s := s) ht hq h0 hs hw hn => by
    have hws : typeNameToBuffer env.isPrint (.named s) = .ok s.string := by
      rw [← symbolText_string]; rfl
    refine ⟨0, _, ?_, ((lineX_field (t := .named s) (tag := f.tag) rfl hw hws (hn.imp_left (fun h => ⟨h, rfl⟩))).comment
      f.comment).congr ⟨fun _ => .named ht hq h0 hs hw hn, fun _ => rfl⟩⟩
    intro fuel _
    rw [FieldSpec.text, ht, fieldTypeText, deref, hq]
    simp only [Outcome.bind, bind, h0, if_false, hs]
    rw [fprintf_str (a := .symbol s) (s := s.string) rfl]
    simp [pure]
  | f, _, .unnamed ht hq h0 hb hn => by
    obtain ⟨n, s, hs, hl⟩ := bodyX_text (env := env) hb
    refine ⟨n, _, ?_, ((lineX_block (tbl := env.isPrint) (tag := f.tag) hl hn).comment f.comment).congr
      (fieldOf_unnamed_iff ht hq h0 hn).symm⟩
    intro fuel hf
    have hne : f.name ≠ [] := by intro e; rw [e] at hn; simp [isIdent] at hn
    rw [FieldSpec.text, ht, fieldTypeText, deref, hq]
    simp only [Outcome.bind, bind, h0, if_true, hs fuel hf]
    simp [pure, hne]
end

/-! ### Declarations -/

/-- A declared type without regard to the names of types in it. -/
def DeclaredType.shape (d : DeclaredType) : GoString × Bool × GoType Unit := (d.name, d.isAlias, d.type.shape)

/-- `LineX` for specs of types. -/
abbrev SpecX (s : GoString) (g : DeclaredType) (good : Prop) : Prop :=
  LineX parseTypeSpec (fun a b => a :: b) (List.map DeclaredType.shape) s g good

/-- `LinesX` for specs of types. -/
abbrev SpecsX (s : GoString) (l : List DeclaredType) (good : Prop) : Prop :=
  LinesX parseTypeSpecs (List.map DeclaredType.shape) .rparen s l good

theorem specsX_cons {s s' : GoString} {g : DeclaredType} {l : List DeclaredType} {good good' : Prop}
    (h : SpecX s g good) (h' : SpecsX s' l good') : SpecsX (s ++ s') (g :: l) (good ∧ good') :=
  LinesX.cons (app := fun a b => a :: b) (Or.inr rfl) (by
    intro f toks a r hh hp
    rw [parseTypeSpecs_step hh, hp]
    cases hq : parseTypeSpecs f r <;> simp [hq]) (by
    intro f toks l' r hh hp
    rw [parseTypeSpecs_step hh] at hp
    simp only [Option.bind_eq_bind, Option.bind_eq_some_iff, Prod.exists] at hp
    obtain ⟨a, r', h1, h2⟩ := hp
    refine ⟨a, r', ?_⟩
    split at h2
    · simp only [Option.bind_eq_some_iff, Option.some.injEq, Prod.mk.injEq, Prod.exists] at h2
      obtain ⟨l'', _, _, rfl, _⟩ := h2
      exact ⟨l'', h1, rfl⟩
    · simp only [Option.some.injEq, Prod.mk.injEq] at h2
      exact ⟨[], h1, by simp [h2.1]⟩
    · simp at h2) (by
    intro a l l' h
    simpa using h) h h'

theorem specsX_nil : SpecsX [] [] True := ⟨[], Toks.nil, by
  intro _ f rest hf
  obtain ⟨f, rfl⟩ : ∃ g, f = g + 1 := ⟨f - 1, by omega⟩
  rfl, fun _ _ _ _ _ _ _ => trivial⟩

theorem typeSpecX_text {s n : GoString} {t : SynType} {good : Prop} (h : TypeTextX s t good)
    (hi : isIdent n = true) (al : Bool) :
    ∃ ts, (∀ b, Toks b (n ++ b! " " ++ (if al then b! "= " else []) ++ s) (.ident n :: (ts ++ [.semi]))) ∧
      (good → ∀ f rest, 4 * ts.length ≤ f →
        parseTypeSpec f (.ident n :: (ts ++ .semi :: rest)) = some (⟨n, al, t⟩, .semi :: rest)) ∧
      ∀ f rest d r, 4 * ts.length ≤ f → parseTypeSpec f (.ident n :: (ts ++ .semi :: rest)) = some (d, r) →
        d.shape = (n, al, t.shape) → good := by
  obtain ⟨ts, h1, ⟨x, l, hx, hxs⟩, h2, h3⟩ := h
  cases al with
  | true =>
    refine ⟨.assign :: ts, fun b => ?_, ?_, ?_⟩
    · have := Toks.before (b := b) (b' := false) (s := n ++ b! " " ++ b! "= ")
        (ts := [.ident n, .assign]) (by
        intro rest tl hr
        rw [List.append_assoc, List.append_assoc]
        exact Lex.ident hi (delim_cons (by decide)) (Lex.space (Lex.punct' (by decide) hr.space)))
        rfl (h1 false)
      simpa using this
    · intro hg f rest hf
      rw [List.cons_append, parseTypeSpec, h2 hg f (.semi :: rest) (by simp at hf; omega) trivial]
      rfl
    · intro f rest d r hf hp hd
      rw [List.cons_append, parseTypeSpec] at hp
      obtain ⟨u, hu, rfl⟩ := of_map (F := fun t => DeclaredType.mk n true t) hp
      simp only [DeclaredType.shape, Prod.mk.injEq, true_and] at hd
      exact h3 f (.semi :: rest) u r (by simp at hf; omega) trivial hu hd
  | false =>
    have e : ∀ f rest, parseTypeSpec f (.ident n :: (ts ++ .semi :: rest)) =
        (do let (t, r) ← parseType f (ts ++ .semi :: rest); some (⟨n, false, t⟩, r)) := by
      intro f rest
      rw [hx, List.cons_append]
      cases x <;> first | rfl | simp [typeStart] at hxs
    refine ⟨ts, fun b => ?_, ?_, ?_⟩
    · have := Toks.before (b := b) (b' := true) (s := n ++ b! " ") (ts := [.ident n]) (by
        intro rest tl hr
        rw [List.append_assoc]
        exact Lex.ident hi (delim_cons (by decide)) hr.space) rfl (h1 true)
      simpa using this
    · intro hg f rest hf
      rw [e, h2 hg f (.semi :: rest) hf trivial]
      rfl
    · intro f rest d r hf hp hd
      rw [e] at hp
      obtain ⟨u, hu, rfl⟩ := of_map (F := fun t => DeclaredType.mk n false t) hp
      simp only [DeclaredType.shape, Prod.mk.injEq, true_and] at hd
      exact h3 f (.semi :: rest) u r (by omega) trivial hu hd

theorem declaresType_iff {h : Heap} {p : Ptr} {ts : TypeSpec} {t : SynType} (hp : h.types p = some ts)
    (hi : isIdent ts.name = true) : DeclaresType h p ⟨ts.name, ts.isAlias, t⟩ ↔ BodyOf h ts t := by
  constructor
  · rintro ⟨ts', hp', -, -, -, hb⟩
    rw [hp] at hp'; cases hp'; exact hb
  · exact fun hb => ⟨ts, hp, hi, rfl, rfl, hb⟩

theorem specX_line {env : Env} {h : Heap} {p : Ptr} {d : DeclaredType} (hd : StandsType h p d) :
    ∃ n s, (∀ fuel, n ≤ fuel →
        ((deref h.types p).bind fun t => t.text env h fuel true) = .ok s) ∧ SpecX s d (DeclaresType h p d) := by
  obtain ⟨ts, hp, hi, h1, h2, hb⟩ := hd
  obtain ⟨n, s, hs, hl⟩ := bodyX_text (env := env) hb
  obtain ⟨ls, h3, h4, h5⟩ := typeSpecX_text hl hi ts.isAlias
  obtain ⟨dn, da, dt⟩ := d
  simp only at h1 h2
  subst h1 h2
  refine ⟨n, writeComment ts.comment ++ (ts.name ++ b! " " ++ (if ts.isAlias then b! "= " else []) ++ s),
    ?_, ?_⟩
  · intro fuel hf
    rw [deref, hp]
    simp only [Outcome.bind, TypeSpec.text, hs fuel hf, bind]
    simp [pure]
  · refine LineX.congr (LineX.comment ⟨.ident ts.name :: ls, by simpa using h3 false,
      ⟨_, _, rfl, by simp, by simp⟩, ?_, ?_⟩ _) (declaresType_iff hp hi).symm
    · intro hg f rest hf
      rw [List.cons_append, h4 hg f rest (by simp at hf; omega)]
    · intro f rest a r l l' hf hp' hu
      rw [List.cons_append] at hp'
      simp only [List.map_cons, List.cons.injEq] at hu
      exact h5 f rest a r (by simp at hf; omega) hp' hu.1

theorem specsX_text {env : Env} {h : Heap} {ps : List Ptr} {ds : List DeclaredType}
    (hd : List.Forall₂ (StandsType h) ps ds) :
    ∃ n s, (∀ fuel, n ≤ fuel → concatText
        (fun p => (deref h.types p).bind fun t => t.text env h fuel true) ps = .ok s) ∧
      SpecsX s ds (List.Forall₂ (DeclaresType h) ps ds) := by
  induction hd with
  | nil => exact ⟨0, [], fun _ _ => rfl, specsX_nil.congr ⟨fun _ => .nil, fun _ => trivial⟩⟩
  | cons hp _ ih =>
    obtain ⟨n, s, hs, hl⟩ := specX_line (env := env) hp
    obtain ⟨m, s', hs', hl'⟩ := ih
    exact ⟨max n m, _, fun fuel hf => concatText_cons (hs fuel (by omega)) (hs' fuel (by omega)),
      (specsX_cons hl hl').congr List.forall₂_cons.symm⟩

theorem parse_of_toks_iff {s : GoString} {ts : List Tok} {d : TypeDeclSyn} {good : Prop}
    (h : Toks false s (ts ++ [.semi]))
    (hp : good → ∀ f, 4 * ts.length + 4 ≤ f → parseTypeDecl f (ts ++ [.semi]) = some (d, [.semi]))
    (hx : ∀ f r, 4 * ts.length + 4 ≤ f → parseTypeDecl f (ts ++ [.semi]) = some (d, r) → good) :
    parseGoTypeDecl s = some d ↔ good := by
  refine ⟨fun hs => ?_, fun hg => parse_of_toks h (hp hg)⟩
  obtain ⟨ls, h1, h2⟩ := h
  have hl : lex s = some ls := by simpa using (h1 [] [] Lex.nil).lex
  rw [parseGoTypeDecl, hl] at hs
  simp only [Option.bind_eq_bind, Option.bind_some, insertSemis, h2, Bool.false_eq_true, if_false,
    List.append_nil, Option.bind_eq_some_iff, Prod.exists] at hs
  obtain ⟨d', r, hs, he⟩ := hs
  split at he
  · cases he
    exact hx _ r (by simp; omega) hs
  · simp at he

theorem decl_text_iff {env : Env} {h : Heap} {d : TypeDecl} {ds : List DeclaredType}
    (hne : d.types ≠ [] ∨ d.comment ≠ []) (hd : List.Forall₂ (StandsType h) d.types ds) :
    ∃ n s, (∀ fuel, n ≤ fuel → d.text env h fuel = .ok s) ∧
      ((d.types.length > 1 ∨ d.comment ≠ []) →
        (parseGoTypeDecl s = some (.group ds) ↔ List.Forall₂ (DeclaresType h) d.types ds)) ∧
      (¬(d.types.length > 1 ∨ d.comment ≠ []) → ∃ t, ds = [t] ∧
        (parseGoTypeDecl s = some (.single t) ↔ List.Forall₂ (DeclaresType h) d.types ds)) := by
  by_cases hg : d.types.length > 1 ∨ d.comment ≠ []
  · obtain ⟨n, s, hs, ts, h1, h2, h2'⟩ := specsX_text (env := env) hd
    refine ⟨n, writeComment d.comment ++ (b! "type (\n" ++ s ++ b! ")\n"), ?_, fun _ => ?_,
      fun hng => absurd hg hng⟩
    · intro fuel hf
      rw [TypeDecl.text, if_pos hg, hs fuel hf]
      simp [bind, Outcome.bind, pure]
    · refine parse_of_toks_iff (ts := .kw .kType :: .lparen :: (ts ++ [.rparen])) ?_ ?_ ?_
      · have := (Toks.comment d.comment).append (ts' := .kw .kType :: .lparen :: (ts ++ [.rparen, .semi]))
          (s' := b! "type (\n" ++ s ++ b! ")\n") (by
            obtain ⟨ls, h3, h4⟩ := h1
            refine ⟨.kw .kType :: .lparen :: .nl :: (ls ++ [.rparen, .nl]), ?_, ?_⟩
            · intro rest tl hr
              simp only [List.append_assoc, List.cons_append, List.nil_append]
              refine Lex.kw (w := b! "type") (by decide) (delim_cons (by decide)) (Lex.space
                (Lex.punct' (by decide) (Lex.newline ?_)))
              exact h3 _ _ (Lex.punct' (by decide) hr.newline)
            · rw [semiStep_cons (by simp), semiStep_cons (by simp)]
              simp [semiStep, endsStatement, semiStep_append, h4])
        simpa using this
      · intro hgood f hf
        have := h2 hgood f [.semi] (by simp at hf; omega)
        simp only [List.cons_append, List.append_assoc, List.nil_append]
        rw [parseTypeDecl]; simp only [this]; rfl
      · intro f r hf hp
        simp only [List.cons_append, List.append_assoc, List.nil_append] at hp
        rw [parseTypeDecl] at hp
        obtain ⟨l, hl, he⟩ := of_map hp
        cases he
        exact h2' f [.semi] _ r (by simp at hf; omega) hl rfl
  · have hg' := hg
    simp only [not_or, Nat.not_lt, ne_eq, not_not] at hg'
    have hne' := hne.resolve_right (by simp [hg'.2])
    obtain ⟨dc, dts⟩ := d
    match dts, ds, hd, hg', hne' with
    | [p], [x], .cons hp .nil, hg', _ =>
      obtain ⟨ts, hp, hi, h1, h2, hb⟩ := hp
      obtain ⟨n, s, hs, hl⟩ := bodyX_text (env := env) hb
      obtain ⟨ls, h3, h4, h5⟩ := typeSpecX_text hl hi ts.isAlias
      obtain ⟨dn, da, dt⟩ := x
      simp only at h1 h2 h4 hg hg'
      subst h1 h2
      refine ⟨n, writeComment ts.comment ++ (b! "type " ++
        (ts.name ++ b! " " ++ (if ts.isAlias then b! "= " else []) ++ s)),
        ?_, fun hc => absurd hc hg, fun _ => ⟨_, rfl, ?_⟩⟩
      · intro fuel hf
        rw [TypeDecl.text, if_neg hg]
        simp only [deref, hp, Outcome.bind, TypeSpec.text, hs fuel hf, bind]
        simp [pure]
      · rw [show List.Forall₂ (DeclaresType h) [p] [⟨ts.name, ts.isAlias, dt⟩] ↔ BodyOf h ts dt by
          rw [List.forall₂_cons, declaresType_iff hp hi]; simp]
        refine parse_of_toks_iff (ts := .kw .kType :: .ident ts.name :: ls) ?_ ?_ ?_
        · have := (Toks.comment ts.comment).append (Toks.before (b := false) (b' := false)
            (s := b! "type ") (ts := [.kw .kType]) (by
              intro rest tl hr
              exact Lex.kw (w := b! "type") (by decide) (delim_cons (by decide)) hr.space) rfl (h3 false))
          simpa using this
        · intro hgood f hf
          have := h4 hgood f [] (by simp at hf; omega)
          simp only [List.cons_append]
          rw [parseTypeDecl, this]
          · rfl
          · simp
        · intro f r hf hp'
          simp only [List.cons_append] at hp'
          rw [parseTypeDecl] at hp'
          · obtain ⟨l, hl, he⟩ := of_map hp'
            cases he
            exact h5 f [] _ r (by simp at hf; omega) hl rfl
          · simp

end Gopoet
