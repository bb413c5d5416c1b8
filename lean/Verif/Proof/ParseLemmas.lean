import Verif.Proof.RenderLemmas
/-! The tokens of a rendered type parse to the type. -/

namespace Gopoet

/-- Tokens that may follow a type. -/
def Follow : List Tok → Prop
  | [] => True
  | .rparen :: _ | .rbrack :: _ | .rbrace :: _ | .comma :: _ | .semi :: _ | .str _ :: _
  | .lbrace :: _ | .assign :: _ | .nl :: _ => True
  | _ => False

/-- First tokens of rendered types. -/
def typeStart : Tok → Bool
  | .ident _ | .star | .lbrack | .kw .kMap | .kw .kChan | .kw .kFunc | .kw .kStruct
  | .kw .kInterface | .arrow => true
  | _ => false

theorem toks_start : ∀ {t : TypeName}, t.valid = true → ∃ x l, t.toks = x :: l ∧ typeStart x = true
  | .nil, h => by simp [TypeName.valid] at h
  | .basic _, _ => ⟨_, _, rfl, rfl⟩
  | .named s, _ => by
    rw [TypeName.toks, Symbol.toks]
    split
    · exact ⟨_, _, rfl, rfl⟩
    · exact ⟨_, _, rfl, rfl⟩
  | .ptr _, _ => ⟨_, _, rfl, rfl⟩
  | .slice _, _ => ⟨_, _, rfl, rfl⟩
  | .array _ _, _ => ⟨_, _, rfl, rfl⟩
  | .map _ _, _ => ⟨_, _, rfl, rfl⟩
  | .chan e d, _ => by
    rw [TypeName.toks]
    split
    · exact ⟨_, _, rfl, rfl⟩
    · split
      · exact ⟨_, _, rfl, rfl⟩
      · exact ⟨_, _, rfl, rfl⟩
  | .func _, _ => ⟨_, _, rfl, rfl⟩
  | .struct _, _ => ⟨_, _, rfl, rfl⟩
  | .interface _ _, _ => ⟨_, _, rfl, rfl⟩

theorem toks_not_arrow : ∀ {t : TypeName} {r : List Tok}, t.valid = true → t.isRecvChan = false →
    (t.toks ++ r).head? ≠ some .arrow
  | .nil, _, h, _ => by simp [TypeName.valid] at h
  | .basic _, _, _, _ => by simp [TypeName.toks]
  | .named s, _, _, _ => by
    rw [TypeName.toks, Symbol.toks]; split <;> simp
  | .ptr _, _, _, _ => by simp [TypeName.toks]
  | .slice _, _, _, _ => by simp [TypeName.toks]
  | .array _ _, _, _, _ => by simp [TypeName.toks]
  | .map _ _, _, _, _ => by simp [TypeName.toks]
  | .chan e d, _, _, h => by
    simp only [TypeName.isRecvChan, beq_eq_false_iff_ne] at h
    rw [TypeName.toks, if_neg h]
    split <;> simp
  | .func _, _, _, _ => by simp [TypeName.toks]
  | .struct _, _, _, _ => by simp [TypeName.toks]
  | .interface _ _, _, _, _ => by simp [TypeName.toks]

theorem parse_chan_both {f : Nat} {r : List Tok} (h : r.head? ≠ some .arrow) :
    parseType (f + 1) (.kw .kChan :: r)
      = (do let (t, r) ← parseType f r; some (.chan .both t, r)) := by
  cases r with
  | nil => rfl
  | cons x r => cases x <;> first | rfl | simp at h

theorem typeName_plain {a : GoString} {r : List Tok} (h : Follow r) :
    typeName (.ident a :: r) = some ((none, a), r) := by
  cases r with
  | nil => rfl
  | cons x r => cases x <;> first | rfl | simp [Follow] at h

theorem typeName_symbol {s : Symbol} {r : List Tok} (h : Follow r) :
    typeName (s.toks ++ r) = some (s.syntaxName, r) := by
  rw [Symbol.toks, Symbol.syntaxName]
  by_cases h0 : s.package.name = []
  · simp only [h0, if_true, List.cons_append, List.nil_append]
    exact typeName_plain h
  · simp only [h0, if_false]; rfl

theorem parse_ident {f : Nat} {a : GoString} {r : List Tok} :
    parseType (f + 1) (.ident a :: r) = (do let (n, r) ← typeName (.ident a :: r); some (.name n, r)) :=
  rfl

theorem parse_symbol {f : Nat} {s : Symbol} {r : List Tok} (h : Follow r) :
    parseType (f + 1) (s.toks ++ r) = some (.name s.syntaxName, r) := by
  have := typeName_symbol (s := s) h
  rw [Symbol.toks] at this ⊢
  split at this
  · rename_i h0
    rw [if_pos h0, List.cons_append, parse_ident]
    rw [List.cons_append] at this
    rw [this]; rfl
  · rename_i h0
    rw [if_neg h0, List.cons_append, parse_ident]
    rw [List.cons_append] at this
    rw [this]; rfl

/-- The entry that a parameter becomes. -/
def entryOf (v named : Bool) (a : ArgType) (l : List ArgType) : ParamEntry :=
  ⟨paramNameOf named a.name, v && l.isEmpty,
    if v && l.isEmpty then syntaxElem a.type else a.type.syntax⟩

def entriesOf (v named : Bool) : List ArgType → List ParamEntry
  | [] => []
  | a :: l => entryOf v named a l :: entriesOf v named l

theorem groupNames_id : ∀ {l : List ArgType} {v : Bool},
    groupNames (entriesOf v true l) = some (entriesOf v true l)
  | [], _ => rfl
  | a :: l, v => by
    rw [entriesOf, groupNames, groupNames_id]
    simp [entryOf, paramNameOf]

theorem checkVariadic_entries : ∀ {l : List ArgType} {v named : Bool}, (v = true → l ≠ []) →
    checkVariadic (entriesOf v named l) = some (syntaxArgs v named l, v)
  | [], v, named, h => by
    cases v with
    | false => rfl
    | true => simp at h
  | [⟨n, t⟩], v, named, _ => by
    simp [entriesOf, checkVariadic, entryOf, syntaxArgs]
  | ⟨n, t⟩ :: b :: l, v, named, _ => by
    have ih := checkVariadic_entries (l := b :: l) (v := v) (named := named) (by simp)
    rw [entriesOf]
    rw [entriesOf] at ih ⊢
    rw [checkVariadic, ih]
    · simp [entryOf, syntaxArgs]
    · simp

theorem paramList_entries {l : List ArgType} {v named : Bool} (h : v = true → l ≠ []) :
    paramList (entriesOf v named l) = some (syntaxArgs v named l, v) := by
  rw [paramList]
  cases named with
  | true =>
    rw [groupNames_id]
    simp only [Option.bind_eq_bind, Option.bind_some]
    rw [checkVariadic_entries h]
    simp
  | false =>
    have : (entriesOf v false l).any (fun e => e.name.isSome) = false := by
      clear h
      induction l with
      | nil => rfl
      | cons a l ih => rw [entriesOf, List.any_cons, ih]; simp [entryOf, paramNameOf]
    rw [if_neg (by simp [this]), checkVariadic_entries h]

theorem parseEntries_step {f : Nat} {toks : List Tok} (h : toks.head? ≠ some .rparen) :
    parseEntries (f + 1) toks = (do
      let (e, r) ← parseEntry f toks
      match r with
      | .comma :: r => do let (es, r) ← parseEntries f r; some (e :: es, r)
      | .rparen :: r => some ([e], r)
      | _ => none) := by
  cases toks with
  | nil => rfl
  | cons x r => cases x <;> first | rfl | simp at h

/-- Tokens that follow a parameter. -/
def ParamEnd (r : List Tok) : Prop := (∃ r', r = .comma :: r') ∨ ∃ r', r = .rparen :: r'

theorem ParamEnd.follow {r} (h : ParamEnd r) : Follow r := by
  rcases h with ⟨r', rfl⟩ | ⟨r', rfl⟩ <;> trivial

theorem parseEntry_named {f : Nat} {a : GoString} {x : Tok} {r : List Tok}
    (hx : typeStart x = true) :
    parseEntry (f + 1) (.ident a :: x :: r)
      = (do let (t, r) ← parseType f (x :: r); some (⟨some a, false, t⟩, r)) := by
  cases x with
  | kw k => cases k <;> rfl
  | _ => first | rfl | simp [typeStart] at hx

theorem parseEntry_unnamed {f : Nat} {t : TypeName} (ht : t.valid = true) {r : List Tok}
    (hr : ParamEnd r) :
    parseEntry (f + 1) (t.toks ++ r)
      = (do let (t, r) ← parseType f (t.toks ++ r); some (⟨none, false, t⟩, r)) := by
  obtain ⟨x, l, hx, hs⟩ := toks_start ht
  by_cases hid : ∃ a, x = .ident a
  · obtain ⟨a, rfl⟩ := hid
    -- a name: followed by a dot or by the end of the parameter
    have : (l = [] ∨ ∃ l', l = .dot :: l') := by
      cases t <;> simp only [TypeName.toks, Symbol.toks] at hx
      case basic => left; simpa using (List.cons.inj hx).2.symm
      case named =>
        split at hx
        · left; exact (List.cons.inj hx).2.symm
        · right; exact ⟨_, (List.cons.inj hx).2.symm⟩
      case chan =>
        split at hx
        · simp at hx
        · split at hx <;> simp at hx
      all_goals simp at hx
    rw [hx]
    rcases this with rfl | ⟨l', rfl⟩
    · rcases hr with ⟨r', rfl⟩ | ⟨r', rfl⟩ <;> rfl
    · rfl
  · rw [hx]
    cases x with
    | kw k => cases k <;> rfl
    | ident a => exact absurd ⟨a, rfl⟩ hid
    | _ => first | rfl | simp [typeStart] at hs

theorem toksArgs_end {v named : Bool} {l : List ArgType} {rest : List Tok} :
    ParamEnd (toksArgs v named true l ++ .rparen :: rest) := by
  cases l with
  | nil => right; exact ⟨_, rfl⟩
  | cons a l => left; obtain ⟨n, t⟩ := a; exact ⟨_, rfl⟩

theorem toksArgs_sep {v named : Bool} {a : ArgType} {l : List ArgType} :
    toksArgs v named true (a :: l) = .comma :: toksArgs v named false (a :: l) := by
  obtain ⟨n, t⟩ := a; rfl

/-- Tokens that follow a field or interface element. -/
def FieldEnd (r : List Tok) : Prop := (∃ r', r = .semi :: r') ∨ ∃ r', r = .rbrace :: r'

theorem FieldEnd.follow {r} (h : FieldEnd r) : Follow r := by
  rcases h with ⟨r', rfl⟩ | ⟨r', rfl⟩ <;> trivial

theorem toksFields_end {l : List FieldType} {rest : List Tok} :
    FieldEnd (toksFields true l ++ .rbrace :: rest) := by
  cases l with
  | nil => right; exact ⟨_, rfl⟩
  | cons a l => left; obtain ⟨n, t, tag⟩ := a; exact ⟨_, rfl⟩

theorem toksMethods_end {l : List MethodType} {rest : List Tok} :
    FieldEnd (toksMethods true l ++ .rbrace :: rest) := by
  cases l with
  | nil => right; exact ⟨_, rfl⟩
  | cons a l => left; obtain ⟨n, s⟩ := a; exact ⟨_, rfl⟩

theorem toksEmbeds_end {l : List Symbol} {rest : List Tok} :
    FieldEnd (toksEmbeds true l ++ .rbrace :: rest) := by
  cases l with
  | nil => right; exact ⟨_, rfl⟩
  | cons a l => left; exact ⟨_, rfl⟩

theorem optTag_of {tag : GoString} {r : List Tok} (h : FieldEnd r) :
    optTag ((if tag = [] then [] else [Tok.str tag]) ++ r) = (optName tag, r) := by
  by_cases h0 : tag = []
  · rcases h with ⟨r', rfl⟩ | ⟨r', rfl⟩ <;> simp [h0, optTag, optName]
  · simp [h0, optTag, optName]

theorem follow_tag {tag : GoString} {r : List Tok} (h : FieldEnd r) :
    Follow ((if tag = [] then [] else [Tok.str tag]) ++ r) := by
  by_cases h0 : tag = []
  · simpa [h0] using h.follow
  · simp [h0, Follow]

theorem parseFields_step {f : Nat} {toks : List Tok} (h : toks.head? ≠ some .rbrace) :
    parseFields (f + 1) toks = (do
      let (fs, r) ← parseField f toks
      match r with
      | .semi :: r => do let (fs', r) ← parseFields f r; some (fs ++ fs', r)
      | .rbrace :: r => some (fs, r)
      | _ => none) := by
  cases toks with
  | nil => rfl
  | cons x r => cases x <;> first | rfl | simp at h

theorem parseElems_step {f : Nat} {toks : List Tok} (h : toks.head? ≠ some .rbrace) :
    parseElems (f + 1) toks = (do
      let (e, r) ← parseElem f toks
      match r with
      | .semi :: r => do let (es, r) ← parseElems f r; some (e :: es, r)
      | .rbrace :: r => some ([e], r)
      | _ => none) := by
  cases toks with
  | nil => rfl
  | cons x r => cases x <;> first | rfl | simp at h

theorem parseField_named {f : Nat} {a : GoString} {x : Tok} {r : List Tok}
    (hx : typeStart x = true) :
    parseField (f + 1) (.ident a :: x :: r) = (do
      let (t, r) ← parseType f (x :: r)
      some ([.mk (some a) t (optTag r).1], (optTag r).2)) := by
  cases x with
  | kw k =>
    cases k <;> (simp only [parseField, identList]; rfl)
  | _ => first | (simp only [parseField, identList]; rfl) | simp [typeStart] at hx

theorem parseField_embedded {f : Nat} {t : TypeName} (he : t.embeddable = true) {tag : GoString}
    {r : List Tok} (hr : FieldEnd r) :
    parseField (f + 1) (t.toks ++ ((if tag = [] then [] else [Tok.str tag]) ++ r))
      = some ([.mk none t.syntax (optName tag)], r) := by
  have hf := follow_tag (tag := tag) hr
  have ho := optTag_of (tag := tag) hr
  have plain : ∀ a : GoString, parseField (f + 1)
      (.ident a :: ((if tag = [] then [] else [Tok.str tag]) ++ r))
      = some ([.mk none (.name (none, a)) (optName tag)], r) := by
    intro a
    have e : parseField (f + 1) (.ident a :: ((if tag = [] then [] else [Tok.str tag]) ++ r))
        = (do let (n, r) ← typeName (.ident a :: ((if tag = [] then [] else [Tok.str tag]) ++ r))
              some ([.mk none (.name n) (optTag r).1], (optTag r).2)) := by
      by_cases h0 : tag = []
      · rcases hr with ⟨r', rfl⟩ | ⟨r', rfl⟩ <;> simp only [h0, if_true, List.nil_append] <;> rfl
      · simp only [h0, if_false, List.cons_append, List.nil_append]; rfl
    rw [e, typeName_plain hf]
    simp [ho]
  have star : ∀ l n r', typeName l = some (n, r') →
      parseField (f + 1) (.star :: l)
        = some ([.mk none (.ptr (.name n)) (optTag r').1], (optTag r').2) := by
    intro l n r' h
    have e : parseField (f + 1) (.star :: l)
      = (do let (n, r) ← typeName l
            some ([.mk none (.ptr (.name n)) (optTag r).1], (optTag r).2)) := rfl
    rw [e, h]; rfl
  match t, he with
  | .basic k, _ => exact plain _
  | .named s, _ =>
    rw [TypeName.toks, TypeName.syntax, Symbol.syntaxName, Symbol.toks]
    by_cases h0 : s.package.name = []
    · simp only [h0, if_true]; exact plain _
    · simp only [h0, if_false, List.cons_append, List.nil_append]
      have e : ∀ l, parseField (f + 1) (.ident s.package.name :: .dot :: .ident s.name :: l)
        = some ([.mk none (.name (some s.package.name, s.name)) (optTag l).1], (optTag l).2) :=
        fun _ => rfl
      rw [e, ho]
  | .ptr (.basic k), _ =>
    have := star _ _ _ (typeName_plain (a := predeclared k) hf)
    rw [ho] at this
    exact this
  | .ptr (.named s), _ =>
    rw [TypeName.toks, TypeName.toks, List.cons_append, star _ _ _ (typeName_symbol hf), ho]
    rfl

theorem parse_embeds : ∀ {es : List Symbol} {f : Nat} {rest : List Tok}, es ≠ [] →
    4 * (toksEmbeds false es).length + 4 ≤ f →
    parseElems f (toksEmbeds false es ++ .rbrace :: rest)
      = some (es.map (fun s => .embed s.syntaxName), rest)
  | [], _, _, h, _ => by simp at h
  | s :: es, f, rest, _, hf => by
    simp only [toksEmbeds, Bool.false_eq_true, if_false, List.nil_append, List.append_assoc,
      List.length_append] at hf ⊢
    have hs : 0 < s.toks.length := by rw [Symbol.toks]; split <;> simp
    obtain ⟨f, rfl⟩ : ∃ g, f = g + 1 := ⟨f - 1, by omega⟩
    obtain ⟨f, rfl⟩ : ∃ g, f = g + 1 := ⟨f - 1, by omega⟩
    have hend := toksEmbeds_end (l := es) (rest := rest)
    rw [parseElems_step (by rw [Symbol.toks]; split <;> simp)]
    have he : parseElem (f + 1) (s.toks ++ (toksEmbeds true es ++ .rbrace :: rest))
        = some (.embed s.syntaxName, toksEmbeds true es ++ .rbrace :: rest) := by
      have ht := typeName_symbol (s := s) hend.follow
      have e : parseElem (f + 1) (s.toks ++ (toksEmbeds true es ++ .rbrace :: rest))
        = (do let (n, r) ← typeName (s.toks ++ (toksEmbeds true es ++ .rbrace :: rest))
              some (.embed n, r)) := by
        rw [Symbol.toks]
        split
        · rcases hend with ⟨r', hr'⟩ | ⟨r', hr'⟩ <;> rw [hr'] <;> rfl
        · rfl
      rw [e, ht]; rfl
    rw [he]
    cases es with
    | nil => rfl
    | cons b es =>
      have ih := parse_embeds (es := b :: es) (f := f + 1) (rest := rest) (by simp) (by
        have : (toksEmbeds true (b :: es)).length = (toksEmbeds false (b :: es)).length + 1 := by
          simp [toksEmbeds]
        omega)
      have e : toksEmbeds true (b :: es) = .semi :: toksEmbeds false (b :: es) := by
        simp [toksEmbeds]
      simp only [e, List.cons_append]
      simp [ih]

mutual
theorem parse_type : ∀ {t : TypeName} {f : Nat} {rest : List Tok}, t.valid = true →
    t.wellNamed = true → t.unproblematic = true → 4 * t.toks.length ≤ f → Follow rest →
    parseType f (t.toks ++ rest) = some (t.syntax, rest)
  | .nil, _, _, h, _, _, _, _ => by simp [TypeName.valid] at h
  | .basic k, f, rest, _, _, _, hf, hr => by
    simp only [TypeName.toks, List.length_singleton] at hf
    obtain ⟨f, rfl⟩ : ∃ g, f = g + 1 := ⟨f - 1, by omega⟩
    rw [TypeName.toks, List.cons_append, parse_ident, List.nil_append, typeName_plain hr]
    rfl
  | .named s, f, rest, _, _, _, hf, hr => by
    have hs : 0 < s.toks.length := by rw [Symbol.toks]; split <;> simp
    simp only [TypeName.toks] at hf
    obtain ⟨f, rfl⟩ : ∃ g, f = g + 1 := ⟨f - 1, by omega⟩
    exact parse_symbol hr
  | .ptr e, f, rest, h, hw, hu, hf, hr => by
    simp only [TypeName.toks, List.length_cons] at hf
    obtain ⟨f, rfl⟩ : ∃ g, f = g + 1 := ⟨f - 1, by omega⟩
    have ih := parse_type (t := e) (f := f) (rest := rest) h hw hu (by omega) hr
    show (do let (t, r) ← parseType f (e.toks ++ rest); some (GoType.ptr t, r)) = _
    rw [ih]; rfl
  | .slice e, f, rest, h, hw, hu, hf, hr => by
    simp only [TypeName.toks, List.length_cons] at hf
    obtain ⟨f, rfl⟩ : ∃ g, f = g + 1 := ⟨f - 1, by omega⟩
    have ih := parse_type (t := e) (f := f) (rest := rest) h hw hu (by omega) hr
    show (do let (t, r) ← parseType f (e.toks ++ rest); some (GoType.slice t, r)) = _
    rw [ih]; rfl
  | .array e n, f, rest, h, hw, hu, hf, hr => by
    simp only [TypeName.toks, List.length_cons] at hf
    simp only [TypeName.valid, Bool.and_eq_true] at h
    obtain ⟨f, rfl⟩ : ∃ g, f = g + 1 := ⟨f - 1, by omega⟩
    have ih := parse_type (t := e) (f := f) (rest := rest) h.1 hw hu (by omega) hr
    show (do let (t, r) ← parseType f (e.toks ++ rest); some (GoType.array n.toNat t, r)) = _
    rw [ih]; rfl
  | .map e k, f, rest, h, hw, hu, hf, hr => by
    simp only [TypeName.toks, List.length_cons, List.length_append] at hf
    simp only [TypeName.valid, TypeName.wellNamed, TypeName.unproblematic, Bool.and_eq_true] at h hw hu
    obtain ⟨f, rfl⟩ : ∃ g, f = g + 1 := ⟨f - 1, by omega⟩
    have ih := parse_type (t := e) (f := f) (rest := rest) h.1 hw.1 hu.1 (by omega) hr
    have ihk := parse_type (t := k) (f := f) (rest := .rbrack :: (e.toks ++ rest)) h.2 hw.2 hu.2
      (by omega) trivial
    rw [TypeName.toks, List.cons_append, List.cons_append, List.append_assoc, List.cons_append]
    show (do
      let (k, r) ← parseType f (k.toks ++ Tok.rbrack :: (e.toks ++ rest))
      match r with
      | .rbrack :: r => do let (t, r) ← parseType f r; some (GoType.map k t, r)
      | _ => none) = _
    rw [ihk]
    show (do let (t, r) ← parseType f (e.toks ++ rest); some (GoType.map _ t, r)) = _
    rw [ih]; rfl
  | .chan e d, f, rest, h, hw, hu, hf, hr => by
    simp only [TypeName.valid, TypeName.unproblematic, Bool.and_eq_true, Bool.or_eq_true, beq_iff_eq,
      Bool.not_eq_true', Bool.and_eq_false_iff, beq_eq_false_iff_ne] at h hu
    have hne : recvDir ≠ sendDir := by decide
    rw [TypeName.toks] at hf ⊢
    by_cases h1 : d = recvDir
    · subst h1
      simp only [if_true, List.length_cons, List.cons_append] at hf ⊢
      obtain ⟨f, rfl⟩ : ∃ g, f = g + 1 := ⟨f - 1, by omega⟩
      have ih := parse_type (t := e) (f := f) (rest := rest) h.1 hw hu.1 (by omega) hr
      show (do let (t, r) ← parseType f (e.toks ++ rest); some (GoType.chan .recv t, r)) = _
      rw [ih]; rfl
    · by_cases h2 : d = sendDir
      · subst h2
        simp only [if_true, if_neg h1, List.length_cons, List.cons_append] at hf ⊢
        obtain ⟨f, rfl⟩ : ∃ g, f = g + 1 := ⟨f - 1, by omega⟩
        have ih := parse_type (t := e) (f := f) (rest := rest) h.1 hw hu.1 (by omega) hr
        show (do let (t, r) ← parseType f (e.toks ++ rest); some (GoType.chan .send t, r)) = _
        rw [ih]; rfl
      · simp only [if_neg h1, if_neg h2, List.length_cons, List.cons_append] at hf ⊢
        obtain ⟨f, rfl⟩ : ∃ g, f = g + 1 := ⟨f - 1, by omega⟩
        have ih := parse_type (t := e) (f := f) (rest := rest) h.1 hw hu.1 (by omega) hr
        have hd : d = bothDir := by
          rcases h.2 with (h' | h') | h'
          · exact absurd h' h1
          · exact absurd h' h2
          · exact h'
        rw [parse_chan_both (toks_not_arrow h.1 (hu.2.resolve_left (by simp [hd]))), ih]
        simp [TypeName.syntax, synDir, h1, h2]
  | .func s, f, rest, h, hw, hu, hf, hr => by
    simp only [TypeName.toks, List.length_cons] at hf
    obtain ⟨f, rfl⟩ : ∃ g, f = g + 1 := ⟨f - 1, by omega⟩
    have ih := parse_sig (s := s) (f := f) (rest := rest) h hw hu (by omega) hr
    show (do let (s, r) ← parseSig f (s.toks ++ rest); some (GoType.func s, r)) = _
    rw [ih]; rfl
  | .struct fs, f, rest, h, hw, hu, hf, hr => by
    simp only [TypeName.toks, List.length_cons, List.length_append, List.length_nil] at hf
    obtain ⟨f, rfl⟩ : ∃ g, f = g + 1 := ⟨f - 1, by omega⟩
    have ih := parse_fields (fs := fs) (f := f) (rest := rest) h hw hu (by omega)
    rw [TypeName.toks, List.cons_append, List.cons_append, List.append_assoc]
    show (do let (fs, r) ← parseFields f (toksFields false fs ++ Tok.rbrace :: rest)
             some (GoType.struct fs, r)) = _
    rw [ih]; rfl
  | .interface ms es, f, rest, h, hw, hu, hf, hr => by
    simp only [TypeName.toks, List.length_cons, List.length_append, List.length_nil] at hf
    simp only [TypeName.wellNamed, TypeName.unproblematic, Bool.and_eq_true, Bool.or_eq_true,
      List.isEmpty_iff] at hw hu
    obtain ⟨f, rfl⟩ : ∃ g, f = g + 1 := ⟨f - 1, by omega⟩
    rw [TypeName.toks, List.cons_append, List.cons_append, List.append_assoc]
    show (do let (es, r) ← parseElems f
                (glue (toksEmbeds false es) (toksMethods false ms) ++ Tok.rbrace :: rest)
             some (GoType.iface es, r)) = _
    rcases hu.2 with rfl | rfl
    · by_cases h0 : es = []
      · subst h0
        obtain ⟨f, rfl⟩ : ∃ g, f = g + 1 := ⟨f - 1, by omega⟩
        rfl
      · simp only [toksMethods, glue_nil] at hf ⊢
        rw [parse_embeds h0 (by omega)]
        simp [TypeName.syntax, syntaxMethods]
    · simp only [toksEmbeds, glue] at hf ⊢
      rw [parse_methods (ms := ms) h hw.1 hu.1 (by omega)]
      simp [TypeName.syntax]
theorem parse_sig : ∀ {s : Signature} {f : Nat} {rest : List Tok}, s.valid = true →
    s.wellNamed = true → s.unproblematic = true → 4 * s.toks.length ≤ f → Follow rest →
    parseSig f (s.toks ++ rest) = some (s.syntax, rest)
  | ⟨args, results, v⟩, f, rest, h, hw, hu, hf, hr => by
    simp only [Signature.valid, Signature.wellNamed, Signature.unproblematic, Bool.and_eq_true,
      Bool.or_eq_true, Bool.not_eq_true'] at h hw hu
    have hv : v = true → lastIsSlice args = true := by
      intro hv; rcases h.2 with h' | h'
      · simp [hv] at h'
      · exact h'
    have hv0 : v = true → args ≠ [] := by
      intro hv'; have := hv hv'; rintro rfl; simp [lastIsSlice] at this
    rw [Signature.toks, List.cons_append, List.append_assoc, List.cons_append]
    simp only [Signature.toks, List.length_cons, List.length_append] at hf
    obtain ⟨f, rfl⟩ : ∃ g, f = g + 1 := ⟨f - 1, by omega⟩
    have iha := parse_args (l := args) (v := v) (named := anyNamed args) (f := f)
      (rest := (if decide (results.length > 1) || anyNamed results then
        .lparen :: (toksArgs false (anyNamed results) false results ++ [.rparen])
       else toksArgs false (anyNamed results) false results) ++ rest) h.1.1 hw.1 hu.1 hv (by omega)
    show (do
      let (es, r) ← parseEntries f _
      let (ps, v) ← paramList es
      let (rs, r) ← parseResult f r
      some (GoSig.mk ps v rs, r)) = _
    rw [iha]
    simp only [Option.bind_eq_bind, Option.bind_some, paramList_entries hv0]
    have hres : parseResult f ((if decide (results.length > 1) || anyNamed results then
        .lparen :: (toksArgs false (anyNamed results) false results ++ [.rparen])
       else toksArgs false (anyNamed results) false results) ++ rest)
       = some (syntaxArgs false (anyNamed results) results, rest) := by
      by_cases hp : (decide (results.length > 1) || anyNamed results) = true
      · rw [if_pos hp] at hf ⊢
        rw [List.cons_append, List.append_assoc]
        simp only [List.length_cons, List.length_append, List.length_nil] at hf
        obtain ⟨f, rfl⟩ : ∃ g, f = g + 1 := ⟨f - 1, by omega⟩
        have ihr := parse_args (l := results) (v := false) (named := anyNamed results) (f := f)
          (rest := rest) h.1.2 hw.2 hu.2 (by simp) (by omega)
        show (do
          let (es, r) ← parseEntries f (toksArgs false (anyNamed results) false results ++
            Tok.rparen :: rest)
          let (ps, v) ← paramList es
          if v then none else some (ps, r)) = _
        rw [ihr]
        simp [paramList_entries (l := results) (v := false) (by simp)]
      · rw [if_neg hp] at hf ⊢
        simp only [Bool.or_eq_true, decide_eq_true_eq, not_or, Bool.not_eq_true] at hp
        obtain ⟨f, rfl⟩ : ∃ g, f = g + 1 := ⟨f - 1, by omega⟩
        match results, hp, h, hw, hu, hf with
        | [], _, _, _, _, _ =>
          simp only [toksArgs, List.nil_append, syntaxArgs]
          cases rest with
          | nil => rfl
          | cons x r => cases x <;> first | rfl | simp [Follow] at hr
        | [⟨n, t⟩], hp, h, hw, hu, hf =>
          simp only [hp.2, toksArgs, Bool.false_eq_true, if_false, List.nil_append, Bool.false_and,
            List.append_nil] at hf ⊢
          simp only [validArgs, wellNamedArgs, unproblematicArgs, Bool.and_true] at h hw hu
          obtain ⟨x, l, hx, hs⟩ := toks_start h.1.2
          have hf' : 4 * t.toks.length ≤ f := by omega
          have ih := parse_type (t := t) (f := f) (rest := rest) h.1.2
            (by simpa using (Bool.and_eq_true_iff.1 hw.2).2) hu.2 hf' hr
          have e : parseResult (f + 1) (t.toks ++ rest) = (do
              let (t, r) ← parseType f (t.toks ++ rest); some ([.mk none t], r)) := by
            rw [hx]
            cases x with
            | kw k => cases k <;> first | rfl | simp [typeStart] at hs
            | _ => first | rfl | simp [typeStart] at hs
          rw [e, ih]
          simp [syntaxArgs, paramNameOf]
        | _ :: _ :: _, hp, _, _, _, _ => simp at hp
    rw [hres]
    rfl
theorem parse_args : ∀ {l : List ArgType} {v named : Bool} {f : Nat} {rest : List Tok},
    validArgs l = true → wellNamedArgs l = true → unproblematicArgs l = true →
    (v = true → lastIsSlice l = true) → 4 * (toksArgs v named false l).length + 4 ≤ f →
    parseEntries f (toksArgs v named false l ++ .rparen :: rest)
      = some (entriesOf v named l, rest)
  | [], _, _, f, _, _, _, _, _, hf => by
    obtain ⟨f, rfl⟩ : ∃ g, f = g + 1 := ⟨f - 1, by omega⟩
    rfl
  | ⟨n, t⟩ :: l, v, named, f, rest, h, hw, hu, hv, hf => by
    simp only [validArgs, wellNamedArgs, unproblematicArgs, Bool.and_eq_true, Bool.or_eq_true,
      beq_iff_eq] at h hw hu
    simp only [toksArgs, Bool.false_eq_true, if_false, List.nil_append, List.append_assoc,
      List.length_append] at hf ⊢
    have hend := toksArgs_end (v := v) (named := named) (l := l) (rest := rest)
    obtain ⟨x, tl, hx, hs⟩ := toks_start h.1
    obtain ⟨f, rfl⟩ : ∃ g, f = g + 1 := ⟨f - 1, by omega⟩
    obtain ⟨f, rfl⟩ : ∃ g, f = g + 1 := ⟨f - 1, by omega⟩
    have hentry : parseEntry (f + 1)
        ((if named then [Tok.ident (if n = [] then b! "_" else n)] else []) ++
          ((if v && l.isEmpty then .ellipsis :: toksElem t else t.toks) ++
            (toksArgs v named true l ++ .rparen :: rest)))
        = some (entryOf v named ⟨n, t⟩ l, toksArgs v named true l ++ .rparen :: rest) := by
      by_cases hc : (v && l.isEmpty) = true
      · simp only [hc, if_true] at hf ⊢
        have hc' := hc
        simp only [Bool.and_eq_true, List.isEmpty_iff] at hc'
        obtain ⟨hv', rfl⟩ := hc'
        have hsl := hv hv'
        match t, h, hw, hu, hf, hsl with
        | .slice e, h, hw, hu, hf, _ =>
          simp only [toksElem, List.length_cons] at hf
          have ih := parse_type (t := e) (f := f)
            (rest := toksArgs v named true [] ++ .rparen :: rest) h.1 hw.1.2 hu.1 (by omega)
            hend.follow
          cases named with
          | true =>
            show (do let (t, r) ← parseType f (e.toks ++ _); some ((⟨some _, true, t⟩ : ParamEntry), r)) = _
            rw [ih]
            simp [entryOf, paramNameOf, hv', syntaxElem]
          | false =>
            show (do let (t, r) ← parseType f (e.toks ++ _); some ((⟨none, true, t⟩ : ParamEntry), r)) = _
            rw [ih]
            simp [entryOf, paramNameOf, hv', syntaxElem]
      · rw [Bool.not_eq_true] at hc
        simp only [hc, Bool.false_eq_true, if_false] at hf ⊢
        have ih := parse_type (t := t) (f := f)
          (rest := toksArgs v named true l ++ .rparen :: rest) h.1 hw.1.2 hu.1 (by omega)
          hend.follow
        cases named with
        | true =>
          simp only [if_true, List.cons_append, List.nil_append]
          rw [hx] at ih ⊢
          rw [List.cons_append, parseEntry_named hs, ← List.cons_append, ih]
          simp [entryOf, paramNameOf, hc]
        | false =>
          simp only [Bool.false_eq_true, if_false, List.nil_append]
          rw [parseEntry_unnamed h.1 hend, ih]
          simp [entryOf, paramNameOf, hc]
    have hhead : ((if named then [Tok.ident (if n = [] then b! "_" else n)] else []) ++
          ((if v && l.isEmpty then .ellipsis :: toksElem t else t.toks) ++
            (toksArgs v named true l ++ .rparen :: rest))).head? ≠ some .rparen := by
      cases named with
      | true => simp
      | false =>
        simp only [Bool.false_eq_true, if_false, List.nil_append]
        split
        · simp
        · rw [hx]; simp; rintro rfl; simp [typeStart] at hs
    rw [parseEntries_step hhead, hentry]
    cases l with
    | nil => rfl
    | cons b l =>
      have hlen : (toksArgs v named true (b :: l)).length
          = (toksArgs v named false (b :: l)).length + 1 := by
        rw [toksArgs_sep]; simp
      have ih := parse_args (l := b :: l) (v := v) (named := named) (f := f + 1) (rest := rest)
        h.2 hw.2 hu.2 (by intro hv'; have := hv hv'; rwa [lastIsSlice_cons] at this) (by omega)
      simp only [toksArgs_sep, List.cons_append]
      simp [ih, entriesOf]
theorem parse_fields : ∀ {fs : List FieldType} {f : Nat} {rest : List Tok},
    validFields fs = true → wellNamedFields fs = true → unproblematicFields fs = true →
    4 * (toksFields false fs).length + 4 ≤ f →
    parseFields f (toksFields false fs ++ .rbrace :: rest) = some (syntaxFields fs, rest)
  | [], f, _, _, _, _, hf => by
    obtain ⟨f, rfl⟩ : ∃ g, f = g + 1 := ⟨f - 1, by omega⟩
    rfl
  | ⟨n, t, tag⟩ :: l, f, rest, h, hw, hu, hf => by
    simp only [validFields, wellNamedFields, unproblematicFields, Bool.and_eq_true, Bool.or_eq_true,
      beq_iff_eq] at h hw hu
    simp only [toksFields, Bool.false_eq_true, if_false, List.nil_append, List.append_assoc,
      List.length_append] at hf ⊢
    have hend := toksFields_end (l := l) (rest := rest)
    obtain ⟨x, tl, hx, hs⟩ := toks_start h.1
    have hlt : 0 < t.toks.length := by rw [hx]; simp
    obtain ⟨f, rfl⟩ : ∃ g, f = g + 1 := ⟨f - 1, by omega⟩
    obtain ⟨f, rfl⟩ : ∃ g, f = g + 1 := ⟨f - 1, by omega⟩
    have hfield : parseField (f + 1) ((if n = [] then [] else [Tok.ident n]) ++ (t.toks ++
        ((if tag = [] then [] else [Tok.str tag]) ++ (toksFields true l ++ .rbrace :: rest))))
        = some ([.mk (optName n) t.syntax (optName tag)], toksFields true l ++ .rbrace :: rest) := by
      by_cases h0 : n = []
      · have he : t.embeddable = true := by
          rcases hw.1.1 with ⟨_, he⟩ | he
          · exact he
          · subst h0; simp [isIdent] at he
        simp only [h0, if_true, List.nil_append]
        rw [parseField_embedded he hend]
        simp [optName]
      · simp only [h0, if_false, List.cons_append, List.nil_append]
        have ih := parse_type (t := t) (f := f)
          (rest := (if tag = [] then [] else [Tok.str tag]) ++ (toksFields true l ++ .rbrace :: rest))
          h.1 hw.1.2 hu.1 (by omega) (follow_tag hend)
        rw [hx] at ih ⊢
        rw [List.cons_append, parseField_named hs, ← List.cons_append, ih]
        simp only [Option.bind_eq_bind, Option.bind_some]
        rw [optTag_of hend]
        simp [optName, h0]
    have hhead : ((if n = [] then [] else [Tok.ident n]) ++ (t.toks ++
        ((if tag = [] then [] else [Tok.str tag]) ++ (toksFields true l ++ .rbrace :: rest)))).head?
        ≠ some .rbrace := by
      by_cases h0 : n = []
      · simp only [h0, if_true, List.nil_append, hx, List.cons_append, List.head?_cons, ne_eq,
          Option.some.injEq]
        rintro rfl; simp [typeStart] at hs
      · simp [h0]
    rw [parseFields_step hhead, hfield]
    cases l with
    | nil => rfl
    | cons b l =>
      have e : toksFields true (b :: l) = .semi :: toksFields false (b :: l) := by
        obtain ⟨n, t, tag⟩ := b; rfl
      have hlen : (toksFields true (b :: l)).length = (toksFields false (b :: l)).length + 1 := by
        rw [e]; simp
      have ih := parse_fields (fs := b :: l) (f := f + 1) (rest := rest) h.2 hw.2 hu.2 (by omega)
      simp only [e, List.cons_append]
      simp only [Option.bind_eq_bind, Option.bind_some, ih]
      rfl
theorem parse_methods : ∀ {ms : List MethodType} {f : Nat} {rest : List Tok},
    validMethods ms = true → wellNamedMethods ms = true → unproblematicMethods ms = true →
    4 * (toksMethods false ms).length + 4 ≤ f →
    parseElems f (toksMethods false ms ++ .rbrace :: rest) = some (syntaxMethods ms, rest)
  | [], f, _, _, _, _, hf => by
    obtain ⟨f, rfl⟩ : ∃ g, f = g + 1 := ⟨f - 1, by omega⟩
    rfl
  | ⟨n, s⟩ :: l, f, rest, h, hw, hu, hf => by
    simp only [validMethods, wellNamedMethods, unproblematicMethods, Bool.and_eq_true] at h hw hu
    simp only [toksMethods, Bool.false_eq_true, if_false, List.nil_append, List.append_assoc,
      List.length_append, List.length_cons, List.cons_append] at hf ⊢
    have hend := toksMethods_end (l := l) (rest := rest)
    obtain ⟨f, rfl⟩ : ∃ g, f = g + 1 := ⟨f - 1, by omega⟩
    obtain ⟨f, rfl⟩ : ∃ g, f = g + 1 := ⟨f - 1, by omega⟩
    have ih := parse_sig (s := s) (f := f) (rest := toksMethods true l ++ .rbrace :: rest)
      h.1 hw.1.2 hu.1 (by omega) hend.follow
    have helem : parseElem (f + 1) (.ident n :: (s.toks ++ (toksMethods true l ++ .rbrace :: rest)))
        = some (.method n s.syntax, toksMethods true l ++ .rbrace :: rest) := by
      have e : parseElem (f + 1) (.ident n :: (s.toks ++ (toksMethods true l ++ .rbrace :: rest)))
        = (do let (s, r) ← parseSig f (s.toks ++ (toksMethods true l ++ .rbrace :: rest))
              some (.method n s, r)) := by
        obtain ⟨a, b, c⟩ := s; rfl
      rw [e, ih]; rfl
    rw [parseElems_step (by simp), helem]
    cases l with
    | nil => rfl
    | cons b l =>
      have e : toksMethods true (b :: l) = .semi :: toksMethods false (b :: l) := by
        obtain ⟨n, t⟩ := b; rfl
      have hlen : (toksMethods true (b :: l)).length = (toksMethods false (b :: l)).length + 1 := by
        rw [e]; simp
      have ih := parse_methods (ms := b :: l) (f := f + 1) (rest := rest) h.2 hw.2 hu.2 (by omega)
      simp only [e, List.cons_append]
      simp only [Option.bind_eq_bind, Option.bind_some, ih]
      rfl
end

end Gopoet
