import Verif.Proof.DeclLemmas
import Verif.Proof.LexAppend
import Verif.Spec.FileSyntax
/-! The text of a file is read as the declarations it was made from. -/

namespace Gopoet

/-! ### Brackets -/

theorem closing_isClosing {o c : Tok} (h : o.closing = some c) :
    c.isClosing = true ∧ c.closing = none ∧ o.isClosing = false := by
  cases o <;> simp [Tok.closing] at h <;> subst h <;> exact ⟨rfl, rfl, rfl⟩

theorem splitOut_cons (stop : Tok → Bool) (st : List Tok) (t : Tok) (r : List Tok) :
    splitOut stop st (t :: r) =
      if st = [] ∧ stop t = true then some ([], t :: r)
      else match t.closing with
        | some c => (splitOut stop (c :: st) r).map fun x => (t :: x.1, x.2)
        | none =>
          if t.isClosing then
            match st with
            | [] => none
            | c :: st => if c = t then (splitOut stop st r).map fun x => (t :: x.1, x.2) else none
          else (splitOut stop st r).map fun x => (t :: x.1, x.2) := by
  conv => lhs; rw [splitOut.eq_def]
  rfl

theorem splitOut_inside {stop : Tok → Bool} {p : Tok → Bool} {ts : List Tok} (h : Balanced p ts) :
    ∀ {st : List Tok} {rest : List Tok}, st ≠ [] →
      splitOut stop st (ts ++ rest) = (splitOut stop st rest).map fun x => (ts ++ x.1, x.2) := by
  induction h with
  | nil => intro st rest _; simp
  | tok h1 h2 _ _ ih =>
    intro st rest hs
    rw [List.cons_append, splitOut_cons, if_neg (by simp [hs])]
    simp only [h1, h2, Bool.false_eq_true, if_false, ih hs, Option.map_map]
    rfl
  | @group p o c a r h1 _ _ iha ihr =>
    intro st rest hs
    obtain ⟨h2, h3, h4⟩ := closing_isClosing h1
    rw [List.cons_append, splitOut_cons, if_neg (by simp [hs])]
    simp only [h1, List.append_assoc, List.cons_append]
    rw [iha (by simp), splitOut_cons, if_neg (by simp)]
    simp only [h3, h2, if_true, ihr hs, Option.map_map]
    rfl

theorem splitOut_balanced {stop p : Tok → Bool} {ts : List Tok} (h : Balanced p ts)
    (hp : ∀ t, p t = true → t.closing = none → t.isClosing = false → stop t = false)
    (ho : ∀ o c, Tok.closing o = some c → stop o = false) {x : Tok} (hx : stop x = true) {rest : List Tok} :
    splitOut stop [] (ts ++ x :: rest) = some (ts, x :: rest) := by
  induction h with
  | nil => rw [List.nil_append, splitOut_cons, if_pos ⟨rfl, hx⟩]
  | tok h1 h2 h3 _ ih =>
    rw [List.cons_append, splitOut_cons, if_neg (by simp [hp _ h3 h1 h2])]
    simp [h1, h2, ih hp]
  | @group p o c a r h1 h5 _ _ ihr =>
    obtain ⟨h2, h3, h4⟩ := closing_isClosing h1
    rw [List.cons_append, splitOut_cons, if_neg (by simp [ho _ _ h1])]
    simp only [h1, List.append_assoc, List.cons_append]
    rw [splitOut_inside h5 (by simp), splitOut_cons, if_neg (by simp)]
    simp [h3, h2, ihr hp]

theorem splitOut_body {ts rest : List Tok} (h : Balanced (fun _ => true) ts) :
    splitOut (· == .rbrace) [] (ts ++ .rbrace :: rest) = some (ts, .rbrace :: rest) :=
  splitOut_balanced h (by intro t _ _ h; cases t <;> first | rfl | simp [Tok.isClosing] at h)
    (by intro o c h; cases o <;> first | rfl | simp [Tok.closing] at h) rfl

theorem splitOut_init {ts rest : List Tok} (h : Balanced (fun t => !endsSpec t) ts) :
    splitOut endsSpec [] (ts ++ .semi :: rest) = some (ts, .semi :: rest) :=
  splitOut_balanced h (by intro t h _ _; simpa using h)
    (by intro o c h; cases o <;> first | rfl | simp [Tok.closing] at h) rfl

/-! ### Arbitrary code -/

theorem insertSemis_newline (ts : List Tok) : semiStep false (ts ++ [.nl]) = (insertSemis ts, false) := by
  rw [semiStep_append, insertSemis]
  rcases semiStep false ts with ⟨a, _ | _⟩ <;> rfl

theorem toks_code {a : GoString} {ts : List Tok} (h : lex a = some ts) :
    Toks false (a ++ b! "\n") (insertSemis ts) := by
  refine ⟨ts ++ [.nl], ?_, insertSemis_newline ts⟩
  intro rest tl hr
  rw [List.append_assoc, List.append_assoc]
  exact lex_append_newline h hr

/-- The code of a function followed by the closing brace. -/
theorem toks_body {code : GoString} {body : List Tok} (h : BodyToks code body) :
    Toks false (code ++ b! "}\n") (body ++ [.rbrace, .semi]) ∧ Balanced (fun _ => true) body := by
  cases h with
  | lines h1 h2 =>
    refine ⟨(toks_code h1).append ⟨[.rbrace, .nl], ?_, rfl⟩, h2⟩
    intro rest tl hr
    exact Lex.punct' (by decide) hr.newline
  | @«open» a ts h1 h2 h3 =>
    refine ⟨⟨ts ++ [.rbrace, .nl], ?_, ?_⟩, h3⟩
    · intro rest tl hr
      rw [List.append_assoc, List.append_assoc]
      exact lex_append_brace h1 h2 hr.newline
    · rw [semiStep_append]
      rfl

/-! ### Names -/

/-- The tokens of names separated by commas. -/
def namesToks : List GoString → List Tok
  | [] => []
  | [n] => [.ident n]
  | n :: m :: ns => .ident n :: .comma :: namesToks (m :: ns)

theorem lexAs_names : ∀ {ns : List GoString}, (∀ n ∈ ns, isIdent n = true) →
    LexAs (joinWith (b! ", ") ns) (namesToks ns)
  | [], _ => LexAs.nil
  | [n], h => fun rest tl hd hr => Lex.ident (h n (by simp)) hd hr
  | n :: m :: ns, h => by
    intro rest tl hd hr
    rw [joinWith, List.append_assoc, List.append_assoc]
    exact Lex.ident (h n (by simp)) (delim_cons (by decide)) (Lex.punct' (by decide) (Lex.space
      (lexAs_names (fun k hk => h k (by simp [hk])) rest tl hd hr)))

theorem identList_names : ∀ {ns : List GoString} {rest : List Tok}, ns ≠ [] →
    rest.head? ≠ some .comma → identList (namesToks ns ++ rest) = some (ns, rest)
  | [], _, h, _ => absurd rfl h
  | [n], [], _, _ => rfl
  | [n], x :: rest, _, h => by
    simp only [namesToks, List.cons_append, List.nil_append]
    cases x <;> first | rfl | simp at h
  | n :: m :: ns, rest, _, h => by
    simp only [namesToks, List.cons_append]
    rw [identList, identList_names (by simp) h]
    rfl

theorem closed_names : ∀ {ns : List GoString}, ns ≠ [] → Closed (namesToks ns)
  | [], h => absurd rfl h
  | [n], _ => closed_one rfl
  | n :: m :: ns, _ => Closed.cons (by simp) (Closed.cons (by simp) (closed_names (by simp)))

/-! ### Constants and variables -/

theorem fprintf_space {env : Env} {h : Heap} {a : Arg} {s : GoString}
    (ha : a.shown env.isPrint h = .str s) : fprintf env h (b! " %v") [a] = b! " " ++ s := by
  rw [fprintf, List.map_cons, List.map_nil, ha]
  simp [sprintf, fmtVerb]

theorem typeSpec_string {tbl : Nat → Bool} {h : Heap} {ts : TypeSpec} {s : Symbol} (hn : ts.name ≠ [])
    (hs : ts.toSymbol h = .ok s) : ts.string tbl h = .ok s.string := by
  unfold TypeSpec.string
  cases hp : ts.parent with
  | none => rw [TypeSpec.toSymbol, hp] at hs; simp [hn] at hs
  | some p => simp [hn, hs]

/-- The type of a constant or variable: its text and tokens. -/
theorem valueType_text (env : Env) {h : Heap} {r : TypeRef} {t : Option SynType} (hr : r.Reads h t) :
    ∃ ts s, (match r.arg with
        | none => []
        | some a => fprintf env h (b! " %v") [a]) = s ∧ LexAs s ts ∧ (∀ rest, Delim rest → Delim (s ++ rest)) ∧
      (t = none ∧ ts = [] ∨ ∃ t', t = some t' ∧ ParsesAs ts t' ∧ Closed ts) := by
  cases hr with
  | nil => exact ⟨[], [], rfl, LexAs.nil, fun _ h => h, Or.inl ⟨rfl, rfl⟩⟩
  | @name t ht =>
    obtain ⟨w, hw, hl⟩ := render_type env.isPrint ht.1 ht.2.1
    refine ⟨t.toks, b! " " ++ w, ?_, fun rest tl hd hr => (hl rest tl hd hr).space,
      fun _ _ => delim_cons (by decide), Or.inr ⟨_, rfl, parsesAs_type ht, closed_type ht.1⟩⟩
    refine fprintf_space ?_
    rw [Arg.shown, string_eq_buffer, hw]; rfl
  | @spec q ts s h1 h2 h3 h4 =>
    have ho := onLine_named h4
    refine ⟨s.toks, b! " " ++ s.string, ?_, fun rest tl hd hr => ?_,
      fun _ _ => delim_cons (by decide), Or.inr ⟨_, rfl, parsesAs_type ho, closed_type ho.1⟩⟩
    · refine fprintf_space ?_
      rw [Arg.shown, deref, h1]
      simp only [Outcome.bind, typeSpec_string h2 h3]; rfl
    · rw [← symbolText_string]
      exact (lexAs_symbol h4 rest tl hd hr).space

theorem optType_parses {f : Nat} {ts rest : List Tok} {t : Option SynType}
    (h : t = none ∧ ts = [] ∨ ∃ t', t = some t' ∧ ParsesAs ts t' ∧ Closed ts) (hf : 4 * ts.length ≤ f)
    (hr : rest.head? = some .assign ∨ rest.head? = some .semi) :
    optType f (ts ++ rest) = some (t, rest) := by
  rcases h with ⟨rfl, rfl⟩ | ⟨t', rfl, ⟨⟨x, l, rfl, hx⟩, hp⟩, -⟩
  · cases rest with
    | nil => simp at hr
    | cons x rest =>
      simp only [List.head?_cons, Option.some.injEq] at hr
      rw [List.nil_append, optType, if_pos (by rcases hr with rfl | rfl <;> rfl)]
  · have hfo : Follow rest := by
      cases rest with
      | nil => trivial
      | cons y rest =>
        simp only [List.head?_cons, Option.some.injEq] at hr
        rcases hr with rfl | rfl <;> trivial
    have := hp f rest hf hfo
    rw [List.cons_append] at this ⊢
    rw [optType, if_neg, this]
    · rfl
    · cases x <;> simp [typeStart] at hx <;> simp [endsSpec]

theorem value_line {env : Env} {h : Heap} {k : Bool} {p : Ptr} {v : ValueSyn}
    (hd : DeclaresValue env h k p v) :
    ∃ c s, h.values p = some c ∧ c.text env h false = .ok s ∧
      c.text env h true = .ok (writeComment c.comment ++ s) ∧
      ∃ ts, (∀ b, Toks b s (ts ++ [.semi])) ∧ (∃ n l, ts = .ident n :: l) ∧
      ∀ f rest, 4 * ts.length ≤ f → parseValueSpec k f (ts ++ .semi :: rest) = some (v, .semi :: rest) := by
  obtain ⟨c, h1, h2, h3, h4, h5, h6, h7⟩ := hd
  obtain ⟨T, w, hw, hl, hdl, hT⟩ := valueType_text env h5
  obtain ⟨vn, vt, vi⟩ := v
  simp only at h4 h5 h6 hT
  subst h4
  have hN := lexAs_names h3
  have hNT : LexAs (joinWith (b! ", ") c.names ++ w) (namesToks c.names ++ T) := by
    exact hN.append hl hdl
  have hst : ∃ n l, namesToks c.names = .ident n :: l := by
    match c.names, h2 with
    | [n], _ => exact ⟨_, _, rfl⟩
    | n :: m :: ns, _ => exact ⟨_, _, rfl⟩
  obtain ⟨n, l, hnl⟩ := hst
  have hcl : Closed (namesToks c.names ++ T) := by
    rcases hT with ⟨-, rfl⟩ | ⟨_, _, _, hc⟩
    · rw [List.append_nil]; exact closed_names h2
    · exact Closed.append (closed_names h2).1 hc
  have hhead : ∀ r : List Tok, (r.head? = some .assign ∨ r.head? = some .semi) →
      (T ++ r).head? ≠ some .comma := by
    intro r hr
    rcases hT with ⟨-, rfl⟩ | ⟨_, _, ⟨⟨x, l, rfl, hx⟩, _⟩, _⟩
    · rw [List.nil_append]; rcases hr with hr | hr <;> rw [hr] <;> simp
    · cases x <;> simp [typeStart] at hx <;> simp
  generalize hci : c.init = ci at h6
  cases h6 with
  | none =>
    refine ⟨c, joinWith (b! ", ") c.names ++ w ++ b! "\n", h1, ?_, ?_, namesToks c.names ++ T,
      fun b => Toks.line hNT hcl b, ⟨n, l ++ T, by rw [hnl]; rfl⟩, ?_⟩
    · simp only [ValueSpec.text, hci]; simp [bind, Outcome.bind, pure]; exact hw
    · simp only [ValueSpec.text, hci]; simp [bind, Outcome.bind, pure]; exact hw
    · intro f rest hf
      rw [List.append_assoc, parseValueSpec, identList_names h2 (hhead _ (Or.inr rfl))]
      simp only [Option.bind_eq_bind, Option.bind_some]
      rw [optType_parses hT (by simp at hf; omega) (Or.inr rfl)]
      simp [optInit, h7]
  | @some b cb a e g1 g2 g3 =>
    obtain ⟨ts, g4, g5, g6, g7⟩ := g3
    have g8 := toks_code g4
    rw [g5] at g8
    refine ⟨c, joinWith (b! ", ") c.names ++ w ++ b! " = " ++ (a ++ b! "\n"), h1, ?_, ?_,
      namesToks c.names ++ T ++ [.assign] ++ e, ?_, ⟨n, l ++ T ++ [.assign] ++ e, by rw [hnl]; simp⟩, ?_⟩
    · simp only [ValueSpec.text, hci, deref, g1, Outcome.bind, g2]; simp [bind, Outcome.bind, pure]; exact hw
    · simp only [ValueSpec.text, hci, deref, g1, Outcome.bind, g2]; simp [bind, Outcome.bind, pure]; exact hw
    · intro b
      have := Toks.before (b := b) (b' := false) (s := joinWith (b! ", ") c.names ++ w ++ b! " = ")
        (ts := namesToks c.names ++ T ++ [.assign]) (by
          intro rest tl hr
          rw [List.append_assoc, List.append_assoc (namesToks c.names ++ T)]
          exact hNT _ _ (delim_cons (by decide)) (Lex.space (Lex.punct' (by decide) hr.space)))
        (by rw [semiStep_append, hcl.semiStep]; rfl) g8
      simpa using this
    · intro f rest hf
      simp only [List.append_assoc]
      rw [parseValueSpec, identList_names h2 (hhead _ (Or.inl rfl))]
      simp only [Option.bind_eq_bind, Option.bind_some]
      rw [optType_parses hT (by simp at hf; omega) (Or.inl rfl)]
      simp only [Option.bind_some, List.cons_append, List.nil_append, optInit, splitOut_init g7, g6, h7,
        Option.bind_eq_bind, if_true, if_false]

end Gopoet
