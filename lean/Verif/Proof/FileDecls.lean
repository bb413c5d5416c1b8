import Verif.Proof.FileLemmas
/-! The elements of a file are read as declarations, and a file as a source file. -/

namespace Gopoet

/-! ### Groups -/

/-- A group of declarations in parentheses. -/
theorem toks_group {w : GoString} {k : Keyword} {s : GoString} {ts : List Tok}
    (hw : ∀ rest tl, Delim rest → Lex rest tl → Lex (w ++ rest) (.kw k :: tl)) (h : Toks false s ts) :
    Toks false (w ++ b! " (\n" ++ s ++ b! ")\n") (.kw k :: .lparen :: (ts ++ [.rparen]) ++ [.semi]) := by
  obtain ⟨ls, h3, h4⟩ := h
  refine ⟨.kw k :: .lparen :: .nl :: (ls ++ [.rparen, .nl]), ?_, ?_⟩
  · intro rest tl hr
    simp only [List.append_assoc, List.cons_append, List.nil_append]
    refine hw _ _ (delim_cons (by decide)) (Lex.space (Lex.punct' (by decide) (Lex.newline ?_)))
    exact h3 _ _ (Lex.punct' (by decide) hr.newline)
  · rw [semiStep_cons (by simp), semiStep_cons (by simp)]
    simp [semiStep, endsStatement, semiStep_append, h4]

theorem lex_type (rest : GoString) (tl : List Tok) (hd : Delim rest) (hr : Lex rest tl) :
    Lex (b! "type" ++ rest) (.kw .kType :: tl) := Lex.kw (w := b! "type") (by decide) hd hr

theorem lex_valueKind (k : ValueKind) : ∃ kw, (∀ rest tl, Delim rest → Lex rest tl →
      Lex (k.keyword ++ rest) (.kw kw :: tl)) ∧ endsStatement (.kw kw) = false ∧
    ∀ f r, parseDecl f (.kw kw :: r) = parseValueDecl (k == .const) f r := by
  cases k
  · exact ⟨.kConst, fun rest tl hd hr => Lex.kw (w := b! "const") (by decide) hd hr, rfl, fun _ _ => rfl⟩
  · exact ⟨.kVar, fun rest tl hd hr => Lex.kw (w := b! "var") (by decide) hd hr, rfl, fun _ _ => rfl⟩

theorem parseValueSpecs_step {k : Bool} {f : Nat} {toks : List Tok} (h : toks.head? ≠ some .rparen) :
    parseValueSpecs k (f + 1) toks = (do
      let (t, r) ← parseValueSpec k f toks
      match r with
      | .semi :: r => do let (ts, r) ← parseValueSpecs k f r; some (t :: ts, r)
      | .rparen :: r => some ([t], r)
      | _ => none) := by
  cases toks with
  | nil => rfl
  | cons x r => cases x <;> first | rfl | simp at h

theorem values_text {env : Env} {h : Heap} {k : Bool} {ps : List Ptr} {vs : List ValueSyn}
    (hd : List.Forall₂ (DeclaresValue env h k) ps vs) :
    ∃ s, concatText (fun p => (deref h.values p).bind fun c => c.text env h true) ps = .ok s ∧
      Lines (parseValueSpecs k) .rparen s vs := by
  induction hd with
  | nil =>
    refine ⟨[], rfl, [], Toks.nil, ?_⟩
    intro f rest hf
    obtain ⟨f, rfl⟩ : ∃ g, f = g + 1 := ⟨f - 1, by omega⟩
    rfl
  | cons hp _ ih =>
    obtain ⟨c, s, h1, -, h2, ts, h3, ⟨n, l, h4⟩, h5⟩ := value_line hp
    obtain ⟨s', hs', hl'⟩ := ih
    refine ⟨_, concatText_cons (by rw [deref, h1]; exact h2) hs', ?_⟩
    refine Lines.cons (app := fun a b => a :: b) (P := parseValueSpec k) (Or.inr rfl) (by
      intro f toks a r hh hp
      rw [parseValueSpecs_step hh, hp]
      cases hq : parseValueSpecs k f r <;> simp [hq]) (Line.comment ?_ _) hl'
    exact ⟨ts, h3 false, ⟨_, l, h4, by simp, by simp⟩, h5⟩

/-! ### Declarations -/

theorem typeDecl_line {env : Env} {h : Heap} {d : TypeDecl} {ds : List DeclaredType}
    (hg : d.types.length > 1 ∨ d.comment ≠ []) (hd : List.Forall₂ (DeclaresType h) d.types ds) :
    ∃ n s, (∀ fuel, n ≤ fuel → d.text env h fuel = .ok s) ∧ Line parseDecl s (.type (.group ds)) := by
  obtain ⟨n, s, hs, ts, h1, h2⟩ := specs_text (env := env) hd
  refine ⟨n, writeComment d.comment ++ (b! "type" ++ b! " (\n" ++ s ++ b! ")\n"), ?_, Line.comment
    ⟨_, toks_group lex_type h1, ⟨_, _, rfl, by simp, by simp⟩, ?_⟩ _⟩
  · intro fuel hf
    rw [TypeDecl.text, if_pos hg, hs fuel hf]
    simp [bind, Outcome.bind, pure]
  · intro f rest hf
    have := h2 f (.semi :: rest) (by simp at hf; omega)
    simp only [List.cons_append, List.append_assoc, List.nil_append]
    rw [parseDecl, parseTypeDecl]; simp only [this]; rfl

theorem typeDecl_single {env : Env} {h : Heap} {d : TypeDecl} {x : DeclaredType}
    (hl : d.types.length = 1) (hc : d.comment = []) (hd : List.Forall₂ (DeclaresType h) d.types [x]) :
    ∃ n s, (∀ fuel, n ≤ fuel → d.text env h fuel = .ok s) ∧ Line parseDecl s (.type (.single x)) := by
  obtain ⟨dc, dts⟩ := d
  simp only at hl hc
  subst hc
  match dts, hd with
  | [p], .cons hp .nil =>
    obtain ⟨ts, hp, hi, h1, h2, hb⟩ := hp
    obtain ⟨n, s, hs, hl⟩ := body_text (env := env) hb
    obtain ⟨ls, h3, h4⟩ := typeSpec_text hl hi ts.isAlias
    obtain ⟨dn, da, dt⟩ := x
    simp only at h1 h2 h4
    subst h1 h2
    refine ⟨n, writeComment ts.comment ++ (b! "type " ++
      (ts.name ++ b! " " ++ (if ts.isAlias then b! "= " else []) ++ s)), ?_, Line.comment
      ⟨.kw .kType :: .ident ts.name :: ls, ?_, ⟨_, _, rfl, by simp, by simp⟩, ?_⟩ _⟩
    · intro fuel hf
      rw [TypeDecl.text, if_neg (by simp)]
      simp only [deref, hp, Outcome.bind, TypeSpec.text, hs fuel hf, bind]
      simp [pure]
    · have := Toks.before (b := false) (b' := false)
        (s := b! "type ") (ts := [.kw .kType]) (fun rest tl hr =>
          lex_type _ _ (delim_cons (by decide)) hr.space) rfl (h3 false)
      simpa using this
    · intro f rest hf
      have := h4 f rest (by simp at hf; omega)
      simp only [List.cons_append]
      rw [parseDecl, parseTypeDecl, this]
      · rfl
      · simp

theorem valueDecl_line {env : Env} {h : Heap} {d : ValueDecl} {vs : List ValueSyn}
    (hg : d.specs.length > 1 ∨ d.comment ≠ [])
    (hd : List.Forall₂ (DeclaresValue env h (d.kind == .const)) d.specs vs) :
    ∃ s, d.text env h = .ok s ∧ Line parseDecl s (.values (d.kind == .const) vs) := by
  obtain ⟨s, hs, ts, h1, h2⟩ := values_text hd
  obtain ⟨kw, k1, k2, k3⟩ := lex_valueKind d.kind
  refine ⟨writeComment d.comment ++ (d.kind.keyword ++ b! " (\n" ++ s ++ b! ")\n"), ?_, Line.comment
    ⟨_, toks_group k1 h1, ⟨_, _, rfl, by simp, by simp⟩, ?_⟩ _⟩
  · rw [ValueDecl.text, if_pos hg, hs]
    simp [bind, Outcome.bind, pure]
  · intro f rest hf
    have := h2 f (.semi :: rest) (by simp at hf; omega)
    simp only [List.cons_append, List.append_assoc, List.nil_append]
    rw [k3, parseValueDecl]; simp only [this]; rfl

theorem valueDecl_single {env : Env} {h : Heap} {d : ValueDecl} {v : ValueSyn}
    (hl : d.specs.length = 1) (hc : d.comment = [])
    (hd : List.Forall₂ (DeclaresValue env h (d.kind == .const)) d.specs [v]) :
    ∃ s, d.text env h = .ok s ∧ Line parseDecl s (.value (d.kind == .const) v) := by
  obtain ⟨kw, k1, k2, k3⟩ := lex_valueKind d.kind
  generalize hsp : d.specs = sp at hd hl
  match sp, hd with
  | [p], .cons hp .nil =>
    obtain ⟨c, s, h1, h2, -, ts, h3, ⟨n, l, h4⟩, h5⟩ := value_line hp
    refine ⟨writeComment c.comment ++ (d.kind.keyword ++ b! " " ++ s), ?_, Line.comment
      ⟨.kw kw :: ts, ?_, ⟨_, _, rfl, by simp, by simp⟩, ?_⟩ _⟩
    · rw [ValueDecl.text, if_neg (by simp [hsp, hc]), hsp]
      simp only [deref, h1, Outcome.bind, h2, bind]
      simp [pure]
    · have := Toks.before (b := false) (b' := false)
        (s := d.kind.keyword ++ b! " ") (ts := [.kw kw]) (fun rest tl hr => by
          rw [List.append_assoc]
          exact k1 _ _ (delim_cons (by decide)) hr.space) (by simp [semiStep, k2]) (h3 false)
      simpa using this
    · intro f rest hf
      have := h5 f rest (by simp at hf; omega)
      rw [List.cons_append, k3]
      rw [h4, List.cons_append] at this ⊢
      rw [parseValueDecl, this]
      · rfl
      · simp

/-- The tokens of a receiver. -/
def ReceiverSpec.toks (r : ReceiverSpec) : List Tok :=
  .lparen :: ((if r.name ≠ [] then [.ident r.name] else []) ++
    ((if r.isPointer then [.star] else []) ++ [.ident r.type, .rparen]))

theorem lexAny_receiver {r : ReceiverSpec} (h1 : r.name = [] ∨ isIdent r.name = true)
    (h2 : isIdent r.type = true) : LexAny r.text r.toks := by
  intro rest tl hr
  rw [ReceiverSpec.text, ReceiverSpec.toks]
  simp only [List.append_assoc, List.cons_append]
  refine Lex.punct' (by decide) ?_
  have k2 : Lex (r.type ++ (b! ") " ++ rest)) (.ident r.type :: .rparen :: tl) :=
    Lex.ident h2 (delim_cons (by decide)) (Lex.punct' (by decide) hr.space)
  have key : Lex ((if r.isPointer then b! "*" else []) ++ (r.type ++ (b! ") " ++ rest)))
      ((if r.isPointer then [.star] else []) ++ .ident r.type :: .rparen :: tl) := by
    cases r.isPointer
    · exact k2
    · exact Lex.punct' (by decide) k2
  by_cases h0 : r.name = []
  · simp only [h0, ne_eq, not_true_eq_false, if_false]; exact key
  · have hi : isIdent r.name = true := h1.resolve_left h0
    simp only [ne_eq, h0, not_false_eq_true, if_true]
    rw [List.append_assoc]
    exact Lex.ident hi (delim_cons (by decide)) key.space

theorem parse_receiver (r : ReceiverSpec) {g : Nat} (hg : 5 ≤ g) (rest : List Tok) :
    (∃ l, r.toks ++ rest = .lparen :: l ∧ ∃ es, parseEntries g l = some (es, rest) ∧
      paramList es = some ([r.param], false)) := by
  refine ⟨_, by rw [ReceiverSpec.toks, List.cons_append],
    [⟨optName r.name, false, if r.isPointer then .ptr (.name (none, r.type)) else .name (none, r.type)⟩], ?_, ?_⟩
  · obtain ⟨g, rfl⟩ : ∃ k, g = k + 5 := ⟨g - 5, by omega⟩
    by_cases h0 : r.name = [] <;> cases r.isPointer <;>
      simp [h0, optName, parseEntries, parseEntry, parseType, typeName]
  · by_cases h0 : r.name = [] <;>
      simp [paramList, optName, h0, groupNames, checkVariadic, ReceiverSpec.param]

theorem func_line {env : Env} {h : Heap} {f : FuncSpec} {code : GoString} {body : List Tok}
    (hn : isIdent f.name = true) (hv : f.signature.valid = true) (hw : f.signature.wellNamed = true)
    (hu : f.signature.unproblematic = true)
    (hr : ∀ r, f.receiver = some r → (r.name = [] ∨ isIdent r.name = true) ∧ isIdent r.type = true)
    (hc : codeText env h f.code = .ok code) (hb : BodyToks code body) :
    ∃ s, f.text env h = .ok s ∧ Line parseDecl s
      (.func ⟨f.receiver.map ReceiverSpec.param, f.name, f.signature.syntax⟩ (some body)) := by
  obtain ⟨w, hs, hl, w', rfl⟩ := render_sig env.isPrint hv hw
  obtain ⟨hbt, hbal⟩ := toks_body hb
  obtain ⟨R, rt, hRt, hR, hRn, hRp⟩ : ∃ (R : List Tok) (rt : GoString), (match f.receiver with
        | none => []
        | some r => r.text) = rt ∧ LexAny rt R ∧ Tok.nl ∉ R ∧ ∀ g rest, 4 * (R.length + f.signature.toks.length + 3) ≤ g →
      parseFuncHead g (.kw .kFunc :: (R ++ .ident f.name :: (f.signature.toks ++ .lbrace :: rest))) =
        some (⟨f.receiver.map ReceiverSpec.param, f.name, f.signature.syntax⟩, .lbrace :: rest) := by
    have hp : ∀ g rest, 4 * f.signature.toks.length ≤ g →
        parseSig g (f.signature.toks ++ .lbrace :: rest) = some (f.signature.syntax, .lbrace :: rest) :=
      fun g rest hg => parse_sig hv hw hu hg trivial
    cases hrc : f.receiver with
    | none =>
      refine ⟨[], [], rfl, lexAny_nil, by simp, fun g rest hg => ?_⟩
      rw [List.nil_append, parseFuncHead, hp _ _ (by omega)]
      rfl
    | some r =>
      obtain ⟨h1, h2⟩ := hr r hrc
      refine ⟨r.toks, r.text, rfl, lexAny_receiver h1 h2, ?_, fun g rest hg => ?_⟩
      · rw [ReceiverSpec.toks]; split <;> split <;> simp
      obtain ⟨l, e1, es, e2, e3⟩ := parse_receiver r (g := g) (by omega)
        (.ident f.name :: (f.signature.toks ++ .lbrace :: rest))
      rw [e1, parseFuncHead, e2]
      simp only [Option.bind_eq_bind, Option.bind_some, e3]
      rw [hp _ _ (by omega)]
      rfl
  refine ⟨writeComment f.comment ++ (b! "func " ++ rt ++ (f.name ++ 40 :: w' ++ b! " {\n") ++ (code ++ b! "}\n")),
    ?_, Line.comment ⟨.kw .kFunc :: (R ++ .ident f.name :: (f.signature.toks ++ .lbrace :: (body ++ [.rbrace]))),
      ?_, ⟨_, _, rfl, by simp, by simp⟩, ?_⟩ _⟩
  · rw [FuncSpec.text, hs, hc, ← hRt]
    cases f.receiver <;> simp [bind, Outcome.bind, pure]
  · obtain ⟨ls, h3, h4⟩ := hbt
    have hnl : .nl ∉ .kw .kFunc :: (R ++ .ident f.name :: f.signature.toks) := by
      simp [hRn, noNl_sig]
    refine ⟨(.kw .kFunc :: (R ++ .ident f.name :: f.signature.toks)) ++ .lbrace :: .nl :: ls, ?_, ?_⟩
    · intro rest tl hr
      have := h3 _ _ hr
      simp only [List.append_assoc, List.cons_append, List.nil_append] at this ⊢
      refine Lex.kw (w := b! "func") (by decide) (delim_cons (by decide)) (Lex.space (hR _ _ ?_))
      refine Lex.ident hn (delim_cons (by decide)) ?_
      exact hl _ _ (delim_cons (by decide)) (Lex.space (Lex.punct' (by decide) this.newline))
    · rw [semiStep_append]
      have := semiStep_noNl (b := false) hnl
      generalize semiStep false (.kw .kFunc :: (R ++ .ident f.name :: f.signature.toks)) = z at this
      obtain ⟨z, b⟩ := z
      simp only at this
      subst this
      rw [semiStep_cons (by simp)]
      simp [semiStep, endsStatement, h4]
  · intro g rest hg
    simp only [List.cons_append, List.append_assoc, List.nil_append, List.length_cons, List.length_append,
      List.length_nil] at hg ⊢
    rw [parseDecl, hRp _ _ (by omega)]
    simp [optBody, splitOut_body hbal]

theorem elem_line {env : Env} {h : Heap} {e : FileElem} {d : DeclSyn} (hd : Declares env h e d) :
    ∃ n s, (∀ fuel, n ≤ fuel → e.text env h fuel = .ok s) ∧ Line parseDecl s d := by
  cases hd with
  | type h1 h2 h3 h4 =>
    obtain ⟨n, s, hs, hl⟩ := typeDecl_single (env := env) h2 h3 h4
    exact ⟨n, s, fun fuel hf => by rw [FileElem.text, deref, h1]; exact hs fuel hf, hl⟩
  | types h1 h2 h3 =>
    obtain ⟨n, s, hs, hl⟩ := typeDecl_line (env := env) h2 h3
    exact ⟨n, s, fun fuel hf => by rw [FileElem.text, deref, h1]; exact hs fuel hf, hl⟩
  | value h1 h2 h3 h4 =>
    obtain ⟨s, hs, hl⟩ := valueDecl_single h2 h3 h4
    exact ⟨0, s, fun fuel hf => by rw [FileElem.text, deref, h1]; exact hs, hl⟩
  | values h1 h2 h3 =>
    obtain ⟨s, hs, hl⟩ := valueDecl_line h2 h3
    exact ⟨0, s, fun fuel hf => by rw [FileElem.text, deref, h1]; exact hs, hl⟩
  | func h1 h2 h3 h4 h5 h6 h7 h8 =>
    obtain ⟨s, hs, hl⟩ := func_line h2 h3 h4 h5 h6 h7 h8
    exact ⟨0, s, fun fuel hf => by rw [FileElem.text, deref, h1]; exact hs, hl⟩

theorem elems_lines {env : Env} {h : Heap} {es : List FileElem} {ds : List DeclSyn}
    (hd : List.Forall₂ (Declares env h) es ds) :
    ∃ n s, (∀ fuel, n ≤ fuel → concatText
        (fun e => (FileElem.text env h fuel e).bind fun s => .ok (b! "\n" ++ s)) es = .ok s) ∧
      ∃ ts, Toks false s ts ∧ ts.head? ≠ some (.kw .kImport) ∧
        ∀ f, 4 * ts.length ≤ f → parseDecls f ts = some ds := by
  induction hd with
  | nil => exact ⟨0, [], fun _ _ => rfl, [], Toks.nil, by simp, fun f _ => by cases f <;> rfl⟩
  | @cons e d es ds he _ ih =>
    obtain ⟨n, s, hs, ts, h1, ⟨x, l, rfl, -, -⟩, h3⟩ := elem_line he
    obtain ⟨m, s', hs', ts', h1', -, h3'⟩ := ih
    refine ⟨max n m, b! "\n" ++ s ++ s', fun fuel hf => concatText_cons
      (by rw [hs fuel (by omega)]; rfl) (hs' fuel (by omega)), _, (Toks.newline.append h1).append h1', ?_, ?_⟩
    · have := h3 (4 * (x :: l).length) [] (Nat.le_refl _)
      rintro hk
      simp only [List.nil_append, List.cons_append, List.head?_cons, Option.some.injEq] at hk
      subst hk
      simp [parseDecl] at this
    · intro f hf
      simp only [List.nil_append, List.length_append, List.length_cons, List.length_nil] at hf
      obtain ⟨f, rfl⟩ : ∃ g, f = g + 1 := ⟨f - 1, by omega⟩
      have := h3 f ts' (by simp; omega)
      simp only [List.nil_append, List.append_assoc, List.cons_append] at this ⊢
      rw [parseDecls, this]
      · simp [h3' f (by omega)]
      · simp

/-! ### Imports and the package clause -/

theorem lowerHex_ne {n : Nat} (h : n < 16) : lowerHex n ≠ 10 := by
  have : ∀ n < 16, lowerHex n ≠ 10 := by decide
  exact this n h

theorem encodeScalar_noNl {r : Nat} (hr : isScalar r = true) (h : r ≠ 10) : (10 : UInt8) ∉ encodeScalar r := by
  have key : ∀ n, n < 256 → n ≠ 10 → (10 : UInt8) ≠ UInt8.ofNat n := by
    intro n h1 h2 h3
    have := congrArg UInt8.toNat h3
    simp [Nat.mod_eq_of_lt h1] at this
    exact h2 this.symm
  have hb : r < 0x110000 := by simp [isScalar] at hr; omega
  rw [encodeScalar]
  split
  · simp only [List.mem_singleton]; exact key _ (by omega) h
  split
  · simp only [List.mem_cons, List.not_mem_nil, or_false, not_or]
    exact ⟨key _ (by omega) (by omega), key _ (by omega) (by omega)⟩
  split
  · simp only [List.mem_cons, List.not_mem_nil, or_false, not_or]
    exact ⟨key _ (by omega) (by omega), key _ (by omega) (by omega), key _ (by omega) (by omega)⟩
  · simp only [List.mem_cons, List.not_mem_nil, or_false, not_or]
    exact ⟨key _ (by omega) (by omega), key _ (by omega) (by omega), key _ (by omega) (by omega),
      key _ (by omega) (by omega)⟩

theorem escapeRune_noNl (tbl : Nat → Bool) {r : Nat} (hr : isScalar r = true) :
    (10 : UInt8) ∉ escapeRune tbl r := by
  have hm : ∀ n, (10 : UInt8) ≠ lowerHex (n % 16) := fun n => (lowerHex_ne (Nat.mod_lt _ (by omega))).symm
  rw [escapeRune]
  by_cases h1 : r = 34 ∨ r = 92
  · rw [if_pos h1]; rcases h1 with rfl | rfl <;> decide
  rw [if_neg h1]
  by_cases hp : isPrint tbl r = true
  · rw [if_pos hp, encodeRune, if_pos hr]
    exact encodeScalar_noNl hr (by rintro rfl; simp [isPrint] at hp)
  rw [if_neg hp]
  by_cases h7 : r = 7
  · rw [if_pos h7]; decide
  rw [if_neg h7]
  by_cases h8 : r = 8
  · rw [if_pos h8]; decide
  rw [if_neg h8]
  by_cases h12 : r = 12
  · rw [if_pos h12]; decide
  rw [if_neg h12]
  by_cases h10 : r = 10
  · rw [if_pos h10]; decide
  rw [if_neg h10]
  by_cases h13 : r = 13
  · rw [if_pos h13]; decide
  rw [if_neg h13]
  by_cases h9 : r = 9
  · rw [if_pos h9]; decide
  rw [if_neg h9]
  by_cases h11 : r = 11
  · rw [if_pos h11]; decide
  rw [if_neg h11]
  by_cases h2 : r < 32 ∨ r = 0x7F
  · rw [if_pos h2]
    have := (lowerHex_ne (n := r / 16) (by omega)).symm
    simp [this, hm]
  · rw [if_neg h2, if_pos hr]
    dsimp only
    by_cases h3 : r < 0x10000
    · rw [if_pos h3]; simp [hm]
    · rw [if_neg h3]; simp [hm]

theorem quoteLoop_noNl (tbl : Nat → Bool) : ∀ (fuel : Nat) (s : GoString), (10 : UInt8) ∉ quoteLoop tbl fuel s
  | 0, _ => by simp [quoteLoop]
  | _ + 1, [] => by simp [quoteLoop]
  | fuel + 1, b :: s => by
    rw [quoteLoop]
    rcases decodeRune_spec b s with he | ⟨r, t, hr, ht, he⟩
    · rw [he]
      have hb := b.toNat_lt
      have h1 := (lowerHex_ne (n := b.toNat / 16) (by omega)).symm
      have h2 := (lowerHex_ne (n := b.toNat % 16) (by omega)).symm
      simp [h1, h2, quoteLoop_noNl tbl fuel s]
    · rw [he]
      dsimp only
      rw [if_neg not_error_of_scalar]
      simp only [List.mem_append, not_or]
      exact ⟨escapeRune_noNl tbl hr, quoteLoop_noNl tbl fuel _⟩

theorem quote_noNl (tbl : Nat → Bool) (s : GoString) : (10 : UInt8) ∉ quote tbl s := by
  simp [quote, quoteLoop_noNl]

theorem lexAs_quote (tbl : Nat → Bool) (s : GoString) : LexAs (quote tbl s) [.str s] :=
  fun rest _ _ hr => Lex.str (stringLit_quote tbl s rest) (Or.inl rfl) hr

theorem toks_package {tbl : Nat → Bool} {f : GoFile} (h : isIdent f.packageName = true) :
    Toks false (f.packageClause tbl) [.kw .kPackage, .ident f.packageName, .semi] := by
  rw [GoFile.packageClause]
  split
  · refine ⟨[.kw .kPackage, .ident f.packageName, .nl], ?_, rfl⟩
    intro rest tl hr
    have := lexAny_commentLine (l := b! "import " ++ quote tbl f.canonicalImportPath)
      (by simp [quote_noNl]) rest tl hr
    simp only [List.append_assoc, List.cons_append, List.nil_append] at this ⊢
    exact Lex.kw (w := b! "package") (by decide) (delim_cons (by decide)) (Lex.space
      (Lex.ident h (delim_cons (by decide)) (Lex.space this)))
  · refine ⟨[.kw .kPackage, .ident f.packageName, .nl], ?_, rfl⟩
    intro rest tl hr
    simp only [List.append_assoc]
    exact Lex.kw (w := b! "package") (by decide) (delim_cons (by decide)) (Lex.space
      (Lex.ident h (delim_cons (by decide)) hr.newline))

theorem import_line {tbl : Nat → Bool} {s : ImportSpec}
    (h : s.packageAlias = [] ∨ s.packageAlias = b! "." ∨ isIdent s.packageAlias = true) :
    ∃ ts, Toks false (s.statement tbl) (.kw .kImport :: ts ++ [.semi]) ∧
      (∀ r, ts ≠ .lparen :: r) ∧
      ∀ rest, parseImportSpec (ts ++ rest) = some (s.syn, rest) := by
  rw [ImportSpec.statement]
  by_cases h0 : s.packageAlias = []
  · rw [if_neg (by simp [h0])]
    refine ⟨[.str s.importPath], ⟨[.kw .kImport, .str s.importPath, .nl], ?_, rfl⟩, by simp, ?_⟩
    · intro rest tl hr
      simp only [List.append_assoc]
      exact Lex.kw (w := b! "import") (by decide) (delim_cons (by decide)) (Lex.space
        (lexAs_quote tbl _ _ _ (delim_cons (by decide)) hr.newline))
    · intro rest; simp [parseImportSpec, ImportSpec.syn, optName, h0]
  · rw [if_pos h0]
    have hq : ∀ rest tl, Lex rest tl → Lex (b! " " ++ (quote tbl s.importPath ++ (b! "\n" ++ rest)))
        (.str s.importPath :: .nl :: tl) := fun rest tl hr =>
      Lex.space (lexAs_quote tbl _ _ _ (delim_cons (by decide)) hr.newline)
    rcases h.resolve_left h0 with h1 | h1
    · refine ⟨[.dot, .str s.importPath], ⟨[.kw .kImport, .dot, .str s.importPath, .nl], ?_, rfl⟩, by simp, ?_⟩
      · intro rest tl hr
        simp only [List.append_assoc, h1]
        refine Lex.kw (w := b! "import") (by decide) (delim_cons (by decide)) (Lex.space ?_)
        exact Lex.dot (by simp) (hq _ _ hr)
      · intro rest; simp [parseImportSpec, ImportSpec.syn, optName, h1]
    · refine ⟨[.ident s.packageAlias, .str s.importPath],
        ⟨[.kw .kImport, .ident s.packageAlias, .str s.importPath, .nl], ?_, rfl⟩, by simp, ?_⟩
      · intro rest tl hr
        simp only [List.append_assoc]
        refine Lex.kw (w := b! "import") (by decide) (delim_cons (by decide)) (Lex.space ?_)
        exact Lex.ident h1 (delim_cons (by decide)) (hq _ _ hr)
      · intro rest; simp [parseImportSpec, ImportSpec.syn, optName, h0]

theorem imports_lines {tbl : Nat → Bool} : ∀ {l : List ImportSpec},
    (∀ s ∈ l, s.packageAlias = [] ∨ s.packageAlias = b! "." ∨ isIdent s.packageAlias = true) →
    ∃ ts, Toks false (l.map (ImportSpec.statement tbl)).flatten ts ∧
      ∀ f rest, rest.head? ≠ some (.kw .kImport) → ts.length + 1 ≤ f →
        parseImports f (ts ++ rest) = some (l.map ImportSpec.syn, rest)
  | [], _ => ⟨[], Toks.nil, fun f rest hr hf => by
      obtain ⟨f, rfl⟩ : ∃ g, f = g + 1 := ⟨f - 1, by omega⟩
      rw [List.nil_append]
      unfold parseImports
      split <;> simp_all⟩
  | s :: l, h => by
    obtain ⟨ts, h1, h2, h3⟩ := import_line (tbl := tbl) (h s (by simp))
    obtain ⟨ts', h1', h2'⟩ := imports_lines (tbl := tbl) (l := l) (fun x hx => h x (by simp [hx]))
    refine ⟨_, by simpa using h1.append h1', ?_⟩
    intro f rest hr hf
    simp only [List.length_append, List.length_cons] at hf
    obtain ⟨f, rfl⟩ : ∃ g, f = g + 1 := ⟨f - 1, by omega⟩
    have e := h3 (.semi :: (ts' ++ rest))
    simp only [List.cons_append, List.append_assoc]
    rw [parseImports.eq_def]
    dsimp only
    have : (match ts ++ .semi :: (ts' ++ rest) with
        | .lparen :: r => parseImportSpecs f r
        | r => (parseImportSpec r).map fun x => ([x.1], x.2)) = some ([s.syn], .semi :: (ts' ++ rest)) := by
      split
      · rename_i r hh
        cases ts with
        | nil => simp at hh
        | cons x l => simp only [List.cons_append, List.cons.injEq] at hh; exact absurd (by rw [hh.1]) (h2 l)
      · rw [e]; rfl
    refine (congrArg (· >>= _) this).trans ?_
    simp [h2' f rest hr (by omega)]

theorem file_parses {env : Env} {h : Heap} {f : GoFile} {ds : List DeclSyn}
    (hp : isIdent f.packageName = true)
    (hi : ∀ s ∈ f.imports.importSpecs,
      s.packageAlias = [] ∨ s.packageAlias = b! "." ∨ isIdent s.packageAlias = true)
    (hd : List.Forall₂ (Declares env h) f.elements ds) :
    ∃ n text, (∀ fuel, n ≤ fuel → f.text env h fuel = .ok text) ∧
      parseGoFile text = some ⟨f.packageName, f.imports.importSpecs.map ImportSpec.syn, ds⟩ := by
  obtain ⟨n, s, hs, ts, h1, h2, h3⟩ := elems_lines hd
  obtain ⟨is, i1, i2⟩ := imports_lines (tbl := env.isPrint) hi
  refine ⟨n, _, fun fuel hf => by rw [GoFile.text, hs fuel hf]; rfl, ?_⟩
  have hfc : Toks false (if f.fileComment ≠ [] then b! "\n" else []) [] := by
    split
    · exact Toks.newline
    · exact Toks.nil
  have key := (((((Toks.comment f.fileComment).append hfc).append (Toks.comment f.packageComment)).append
    (toks_package (tbl := env.isPrint) hp)).append Toks.newline).append i1 |>.append h1
  obtain ⟨ls, l1, l2⟩ := key
  have hl := (l1 [] [] Lex.nil).lex
  rw [List.append_nil, List.append_nil] at hl
  rw [parseGoFile, hl]
  simp only [Option.bind_eq_bind, Option.bind_some, insertSemis, l2, Bool.false_eq_true, if_false,
    List.append_nil, List.nil_append, List.cons_append]
  rw [i2 _ ts h2 (by simp)]
  simp [h3 _ (Nat.le_add_right _ _)]

end Gopoet
