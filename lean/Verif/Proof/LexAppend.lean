import Verif.Proof.LexLemmas
/-! The lexer on arbitrary text that is followed by other text. -/

namespace Gopoet

theorem takeWhile_append_stop {p : UInt8 → Bool} {c : UInt8} (hc : p c = false) :
    ∀ (s rest : GoString), (s ++ c :: rest).takeWhile p = s.takeWhile p
  | [], rest => by simp [hc]
  | a :: s, rest => by
    simp only [List.cons_append, List.takeWhile_cons]
    rw [takeWhile_append_stop hc s rest]

theorem dropWhile_append_stop {p : UInt8 → Bool} {c : UInt8} (hc : p c = false) :
    ∀ (s rest : GoString), (s ++ c :: rest).dropWhile p = s.dropWhile p ++ c :: rest
  | [], rest => by simp [hc]
  | a :: s, rest => by
    simp only [List.cons_append, List.dropWhile_cons]
    rw [dropWhile_append_stop hc s rest]
    split <;> rfl

theorem blockComment_append : ∀ {s r : GoString} {b : Bool} (x : GoString), blockComment s = some (b, r) →
    blockComment (s ++ x) = some (b, r ++ x) ∧ r.length ≤ s.length := by
  intro s
  fun_induction blockComment s with
  | case1 r => rintro _ _ x ⟨⟩; exact ⟨rfl, by simp; try omega⟩
  | case2 r ih =>
    intro r' b x h
    simp only [Option.bind_eq_bind, Option.bind_eq_some_iff, Prod.exists, pure] at h
    obtain ⟨b', r'', h1, h2⟩ := h
    simp only [Option.some.injEq, Prod.mk.injEq] at h2
    obtain ⟨rfl, rfl⟩ := h2
    obtain ⟨h3, h4⟩ := ih x h1
    refine ⟨?_, by simp; omega⟩
    rw [List.cons_append, blockComment, h3]; rfl
  | case3 c r h1 h2 ih =>
    intro r' b x h
    obtain ⟨h3, h4⟩ := ih x h
    refine ⟨?_, by simp; omega⟩
    rw [List.cons_append, blockComment, h3]
    · intro r'' e1 e2
      subst e1
      cases r with
      | nil => simp [blockComment] at h
      | cons y r =>
        simp only [List.cons_append, List.cons.injEq] at e2
        exact h1 r rfl (by rw [e2.1])
    · exact h2
  | case4 => intro r' b x h; simp at h

theorem rawBody_append : ∀ {s v r : GoString} (x : GoString), rawBody s = some (v, r) →
    rawBody (s ++ x) = some (v, r ++ x) ∧ r.length ≤ s.length := by
  intro s
  fun_induction rawBody s with
  | case1 r => rintro _ _ x ⟨⟩; exact ⟨rfl, by simp; try omega⟩
  | case2 r ih =>
    intro v r' x h
    obtain ⟨h3, h4⟩ := ih x h
    exact ⟨by rw [List.cons_append, rawBody, h3], by simp; omega⟩
  | case3 c r h1 h2 ih =>
    intro v r' x h
    simp only [Option.bind_eq_bind, Option.bind_eq_some_iff, Prod.exists, pure] at h
    obtain ⟨b', r'', h3, h4⟩ := h
    simp only [Option.some.injEq, Prod.mk.injEq] at h4
    obtain ⟨rfl, rfl⟩ := h4
    obtain ⟨h5, h6⟩ := ih x h3
    refine ⟨?_, by simp; omega⟩
    rw [List.cons_append, rawBody, h5]
    · rfl
    · exact h1
    · exact h2
  | case4 => intro v r' x h; simp at h

theorem body_step {rest pre : GoString} {F : GoString → GoString}
    (ih : ∀ {v r : GoString} (x : GoString), interpretedBody rest = some (v, r) →
      interpretedBody (rest ++ x) = some (v, r ++ x) ∧ r.length ≤ rest.length)
    (hd : ∀ y, interpretedBody (pre ++ y) = (interpretedBody y).map fun p => (F p.1, p.2))
    {v r : GoString} (x : GoString) (h : interpretedBody (pre ++ rest) = some (v, r)) :
    interpretedBody (pre ++ rest ++ x) = some (v, r ++ x) ∧ r.length ≤ (pre ++ rest).length := by
  rw [hd, Option.map_eq_some_iff] at h
  obtain ⟨⟨v', r'⟩, h1, h2⟩ := h
  simp only [Prod.mk.injEq] at h2
  obtain ⟨rfl, rfl⟩ := h2
  obtain ⟨h3, h4⟩ := ih x h1
  exact ⟨by rw [List.append_assoc, hd, h3]; rfl, by simp; omega⟩

theorem bind_pure_map {α β : Type} (o : Option (α × β)) (F : α → α) :
    (do let (v, r) ← o; pure (F v, r)) = o.map fun p => (F p.1, p.2) := by
  cases o <;> rfl

theorem interpretedBody_append : ∀ {s v r : GoString} (x : GoString), interpretedBody s = some (v, r) →
    interpretedBody (s ++ x) = some (v, r ++ x) ∧ r.length ≤ s.length := by
  intro s
  induction s using interpretedBody.induct with
  | case1 r => rintro _ _ x ⟨⟩; exact ⟨rfl, by simp⟩
  | case2 a b rest ih =>
    intro v r x h
    cases hn : hexNum [a, b] with
    | none => rw [interpretedBody, hn] at h; simp at h
    | some n =>
      refine body_step (pre := [92, 120, a, b]) (F := fun v => UInt8.ofNat n :: v) ih (fun y => ?_) x h
      exact (show _ = (hexNum [a, b]).bind _ from rfl).trans (by rw [hn]; exact bind_pure_map _ _)
  | case3 a b c d rest ih =>
    intro v r x h
    cases hn : hexNum [a, b, c, d] with
    | none => rw [interpretedBody, hn] at h; simp at h
    | some n =>
      cases hs : isScalar n with
      | false => rw [interpretedBody, hn] at h; simp [hs] at h
      | true =>
        refine body_step (pre := [92, 117, a, b, c, d]) (F := fun v => encodeScalar n ++ v) ih (fun y => ?_) x h
        refine (show _ = (hexNum [a, b, c, d]).bind _ from rfl).trans ?_
        rw [hn, Option.bind_some, if_pos hs]
        exact bind_pure_map _ _
  | case4 a b c d e f g h' rest ih =>
    intro v r x h
    cases hn : hexNum [a, b, c, d, e, f, g, h'] with
    | none => rw [interpretedBody, hn] at h; simp at h
    | some n =>
      cases hs : isScalar n with
      | false => rw [interpretedBody, hn] at h; simp [hs] at h
      | true =>
        refine body_step (pre := [92, 85, a, b, c, d, e, f, g, h']) (F := fun v => encodeScalar n ++ v) ih
          (fun y => ?_) x h
        refine (show _ = (hexNum [a, b, c, d, e, f, g, h']).bind _ from rfl).trans ?_
        rw [hn, Option.bind_some, if_pos hs]
        exact bind_pure_map _ _
  | case5 rest ih => intro v r x h; exact body_step (pre := [92, 97]) ih (fun y => bind_pure_map _ (7 :: ·)) x h
  | case6 rest ih => intro v r x h; exact body_step (pre := [92, 98]) ih (fun y => bind_pure_map _ (8 :: ·)) x h
  | case7 rest ih => intro v r x h; exact body_step (pre := [92, 102]) ih (fun y => bind_pure_map _ (12 :: ·)) x h
  | case8 rest ih => intro v r x h; exact body_step (pre := [92, 110]) ih (fun y => bind_pure_map _ (10 :: ·)) x h
  | case9 rest ih => intro v r x h; exact body_step (pre := [92, 114]) ih (fun y => bind_pure_map _ (13 :: ·)) x h
  | case10 rest ih => intro v r x h; exact body_step (pre := [92, 116]) ih (fun y => bind_pure_map _ (9 :: ·)) x h
  | case11 rest ih => intro v r x h; exact body_step (pre := [92, 118]) ih (fun y => bind_pure_map _ (11 :: ·)) x h
  | case12 rest ih => intro v r x h; exact body_step (pre := [92, 92]) ih (fun y => bind_pure_map _ (92 :: ·)) x h
  | case13 rest ih => intro v r x h; exact body_step (pre := [92, 34]) ih (fun y => bind_pure_map _ (34 :: ·)) x h
  | case14 a b c rest h1 h2 h3 h4 h5 h6 h7 h8 h9 h10 h11 h12 ih =>
    intro v r x h
    have hu : octVal a ≠ none → a ≠ 117 ∧ a ≠ 85 := by
      intro ha; constructor <;> rintro rfl <;> exact ha (by decide)
    rw [interpretedBody] at h
    · simp only [Option.bind_eq_bind, Option.bind_eq_some_iff] at h
      obtain ⟨p, hp, q, hq, z, hz, h⟩ := h
      obtain ⟨hu1, hu2⟩ := hu (by rw [hp]; simp)
      have e : ∀ y, interpretedBody (92 :: a :: b :: c :: y) =
          if p * 64 + q * 8 + z < 256 then (interpretedBody y).bind fun w =>
            some (UInt8.ofNat (p * 64 + q * 8 + z) :: w.1, w.2) else none := by
        intro y
        rw [interpretedBody, hp, hq, hz]
        · rfl
        all_goals (intros; contradiction)
      split at h
      · rename_i hlt
        simp only [Option.bind_eq_some_iff, Prod.exists, pure, Option.some.injEq, Prod.mk.injEq] at h
        obtain ⟨v', r', h13, rfl, rfl⟩ := h
        obtain ⟨h14, h15⟩ := ih x h13
        refine ⟨?_, by simp; omega⟩
        simp only [List.cons_append]
        rw [e, if_pos hlt, h14]; rfl
      · simp at h
    all_goals assumption
  | case15 t h1 h2 h3 h4 h5 h6 h7 h8 h9 h10 h11 h12 h13 =>
    intro v r x h
    rw [interpretedBody] at h
    · simp at h
    all_goals assumption
  | case16 t => intro v r x h; simp [interpretedBody] at h
  | case17 c rest h1 h2 h3 h4 h5 h6 h7 h8 h9 h10 h11 h12 h13 h14 h15 h16 ih =>
    intro v r x h
    refine body_step (pre := [c]) (F := (c :: ·)) ih (fun y => ?_) x h
    rw [List.singleton_append, interpretedBody]
    · exact bind_pure_map _ _
    all_goals (intros; contradiction)
  | case18 => intro v r x h; simp [interpretedBody] at h

theorem stringLit_append {s v r : GoString} (x : GoString) (h : stringLit s = some (v, r)) :
    stringLit (s ++ x) = some (v, r ++ x) ∧ r.length < s.length := by
  unfold stringLit at h
  split at h
  · obtain ⟨h1, h2⟩ := interpretedBody_append x h
    exact ⟨h1, by simp; omega⟩
  · obtain ⟨h1, h2⟩ := rawBody_append x h
    exact ⟨h1, by simp; omega⟩
  · simp at h

/-- One step of the lexer. -/
def lexStep (b : UInt8) (s : GoString) : Option (List Tok × GoString) :=
  if b = 32 ∨ b = 9 ∨ b = 13 then some ([], s)
  else if b = 10 then some ([.nl], s)
  else if isLetterByte b then
    some ([wordTok (b :: s.takeWhile isWordByte)], s.dropWhile isWordByte)
  else if isDigitByte b then
    (decNum (b :: s.takeWhile isWordByte)).map fun n => ([.int n], s.dropWhile isWordByte)
  else if b = 34 ∨ b = 96 then (stringLit (b :: s)).map fun x => ([.str x.1], x.2)
  else punctStep b s

theorem lexFuel_step (f : Nat) (b : UInt8) (s : GoString) :
    lexFuel (f + 1) (b :: s) = (lexStep b s).bind fun x => (lexFuel f x.2).map (x.1 ++ ·) := by
  unfold lexStep
  rw [lexFuel]
  split
  · simp
  split
  · simp
  split
  · simp
  split
  · cases decNum (b :: s.takeWhile isWordByte) <;> simp
  split
  · cases stringLit (b :: s) <;> simp
  · cases punctStep b s <;> simp

theorem length_dropWhile_le (p : UInt8 → Bool) (s : GoString) : (s.dropWhile p).length ≤ s.length := by
  induction s with
  | nil => simp
  | cons a s ih =>
    rw [List.dropWhile_cons]
    split
    · simp; omega
    · simp

theorem dropWhile_of_mem {s : GoString} (h : (10 : UInt8) ∈ s) (x : GoString) :
    (s ++ x).dropWhile (fun c => c != 10) = s.dropWhile (fun c => c != 10) ++ x := by
  induction s with
  | nil => simp at h
  | cons a s ih =>
    rw [List.cons_append, List.dropWhile_cons, List.dropWhile_cons]
    split
    · rename_i ha
      refine ih ?_
      simp only [List.mem_cons] at h
      rcases h with rfl | h
      · simp at ha
      · exact h
    · rfl

theorem dropWhile_of_not_mem {s : GoString} (h : (10 : UInt8) ∉ s) :
    s.dropWhile (fun c => c != 10) = [] := by
  induction s with
  | nil => rfl
  | cons a s ih =>
    simp only [List.mem_cons, not_or] at h
    rw [List.dropWhile_cons, if_pos (by simpa using fun e => h.1 e.symm)]
    exact ih h.2

theorem step_append {b c : UInt8} {s r : GoString} {t : List Tok} (hc : c = 10 ∨ c = 125)
    (h : lexStep b s = some (t, r)) : r.length ≤ s.length ∧
      ((∀ rest, lexStep b (s ++ c :: rest) = some (t, r ++ c :: rest)) ∨
        (c = 125 ∧ t = [] ∧ r = [] ∧ lexStep b (s ++ [125]) = some ([], []))) := by
  have hw : isWordByte c = false := by rcases hc with rfl | rfl <;> decide
  unfold lexStep at h ⊢
  by_cases h1 : b = 32 ∨ b = 9 ∨ b = 13
  · simp only [if_pos h1, Option.some.injEq, Prod.mk.injEq] at h ⊢
    obtain ⟨rfl, rfl⟩ := h
    exact ⟨by simp, Or.inl fun rest => ⟨rfl, rfl⟩⟩
  simp only [if_neg h1] at h ⊢
  by_cases h2 : b = 10
  · simp only [if_pos h2, Option.some.injEq, Prod.mk.injEq] at h ⊢
    obtain ⟨rfl, rfl⟩ := h
    exact ⟨by simp, Or.inl fun rest => ⟨rfl, rfl⟩⟩
  simp only [if_neg h2] at h ⊢
  by_cases h3 : isLetterByte b = true
  · simp only [if_pos h3, Option.some.injEq, Prod.mk.injEq] at h ⊢
    obtain ⟨rfl, rfl⟩ := h
    refine ⟨length_dropWhile_le _ _, Or.inl fun rest => ⟨?_, ?_⟩⟩
    · rw [takeWhile_append_stop hw]
    · rw [dropWhile_append_stop hw]
  simp only [if_neg h3] at h ⊢
  by_cases h4 : isDigitByte b = true
  · simp only [if_pos h4, Option.map_eq_some_iff, Prod.mk.injEq] at h ⊢
    obtain ⟨n, hn, rfl, rfl⟩ := h
    refine ⟨length_dropWhile_le _ _, Or.inl fun rest => ⟨n, ?_, rfl, ?_⟩⟩
    · rw [takeWhile_append_stop hw]; exact hn
    · rw [dropWhile_append_stop hw]
  simp only [if_neg h4] at h ⊢
  by_cases h5 : b = 34 ∨ b = 96
  · simp only [if_pos h5, Option.map_eq_some_iff, Prod.mk.injEq, Prod.exists] at h ⊢
    obtain ⟨v, r', hn, rfl, rfl⟩ := h
    have hl := (stringLit_append [] hn).2
    refine ⟨by simp at hl; omega, Or.inl fun rest => ⟨v, _, ?_, rfl, rfl⟩⟩
    have := (stringLit_append (c :: rest) hn).1
    simpa using this
  simp only [if_neg h5] at h ⊢
  rw [punctStep.eq_def] at h
  split at h
  · simp only [Option.some.injEq, Prod.mk.injEq] at h
    obtain ⟨rfl, rfl⟩ := h
    exact ⟨by simp; try omega, Or.inl fun rest => rfl⟩
  · simp only [Option.some.injEq, Prod.mk.injEq] at h
    obtain ⟨rfl, rfl⟩ := h
    exact ⟨by simp; try omega, Or.inl fun rest => rfl⟩
  · rename_i s
    simp only [Option.some.injEq, Prod.mk.injEq] at h
    obtain ⟨rfl, rfl⟩ := h
    refine ⟨by have := length_dropWhile_le (fun c => c != 10) s; simp; omega, ?_⟩
    simp only [List.cons_append, punctStep]
    by_cases hm : (10 : UInt8) ∈ s
    · exact Or.inl fun rest => by rw [dropWhile_of_mem hm]
    · rcases hc with rfl | rfl
      · exact Or.inl fun rest => by rw [dropWhile_append_stop (by rfl)]
      · refine Or.inr ⟨by trivial, by trivial, dropWhile_of_not_mem hm, ?_⟩
        rw [dropWhile_of_not_mem (by simp [hm])]
  · rename_i s
    simp only [Option.map_eq_some_iff, Prod.mk.injEq, Prod.exists] at h
    obtain ⟨n, r', hn, rfl, rfl⟩ := h
    have hl := (blockComment_append [] hn).2
    refine ⟨by simp; omega, Or.inl fun rest => ?_⟩
    have := (blockComment_append (c :: rest) hn).1
    simp only [List.cons_append, punctStep, this]
    rfl
  · rename_i g1 g2 g3 g4
    simp only [Option.some.injEq, Prod.mk.injEq] at h
    obtain ⟨rfl, rfl⟩ := h
    refine ⟨by simp, Or.inl fun rest => ?_⟩
    have hcn : c ≠ 45 ∧ c ≠ 46 ∧ c ≠ 47 ∧ c ≠ 42 := by rcases hc with rfl | rfl <;> decide
    rw [punctStep]
    · intro r'' e1 e2
      cases s with
      | nil => simp at e2; exact hcn.1 e2.1
      | cons a s => simp at e2; exact g1 s e1 (by rw [e2.1])
    · intro r'' e1 e2
      cases s with
      | nil => simp at e2; exact hcn.2.1 e2.1
      | cons a s =>
        cases s with
        | nil => simp at e2; exact hcn.2.1 e2.2.1
        | cons a' s => simp at e2; exact g2 s e1 (by rw [e2.1, e2.2.1])
    · intro r'' e1 e2
      cases s with
      | nil => simp at e2; exact hcn.2.2.1 e2.1
      | cons a s => simp at e2; exact g3 s e1 (by rw [e2.1])
    · intro r'' e1 e2
      cases s with
      | nil => simp at e2; exact hcn.2.2.2 e2.1
      | cons a s => simp at e2; exact g4 s e1 (by rw [e2.1])

/-- Text followed by a line end. -/
theorem lex_append_newline : ∀ {f : Nat} {a : GoString} {ts : List Tok}, lexFuel f a = some ts →
    ∀ {rest tl}, Lex rest tl → Lex (a ++ 10 :: rest) (ts ++ .nl :: tl)
  | 0, [], ts, h, rest, tl, hr => by cases h; exact hr.newline
  | _ + 1, [], ts, h, rest, tl, hr => by cases h; exact hr.newline
  | 0, _ :: _, ts, h, rest, tl, hr => by cases h
  | f + 1, b :: s, ts, h, rest, tl, hr => by
    rw [lexFuel_step, Option.bind_eq_some_iff] at h
    obtain ⟨⟨t, r⟩, h1, h2⟩ := h
    simp only [Option.map_eq_some_iff] at h2
    obtain ⟨ts', h2, rfl⟩ := h2
    obtain ⟨h3, h4⟩ := step_append (Or.inl rfl) h1
    have h4 := h4.resolve_right (fun hn => absurd hn.1 (by decide))
    intro g hg
    obtain ⟨g, rfl⟩ : ∃ k, g = k + 1 := ⟨g - 1, by simp at hg; omega⟩
    rw [List.cons_append, lexFuel_step, h4]
    have := lex_append_newline h2 hr g (by simp at hg ⊢; omega)
    simp [this]

/-- Text followed by a brace, unless its last line ends with a comment. -/
theorem lex_append_brace : ∀ {f g : Nat} {a : GoString} {ts : List Tok}, lexFuel f a = some ts →
    lexFuel g (a ++ [125]) = some (ts ++ [.rbrace]) →
    ∀ {rest tl}, Lex rest tl → Lex (a ++ 125 :: rest) (ts ++ .rbrace :: tl)
  | 0, _, [], ts, h, _, rest, tl, hr => by cases h; exact Lex.punct' (by decide) hr
  | _ + 1, _, [], ts, h, _, rest, tl, hr => by cases h; exact Lex.punct' (by decide) hr
  | 0, _, _ :: _, ts, h, _, rest, tl, hr => by cases h
  | f + 1, 0, b :: s, ts, h, h', rest, tl, hr => by cases h'
  | f + 1, g + 1, b :: s, ts, h, h', rest, tl, hr => by
    rw [lexFuel_step, Option.bind_eq_some_iff] at h
    obtain ⟨⟨t, r⟩, h1, h2⟩ := h
    simp only [Option.map_eq_some_iff] at h2
    obtain ⟨ts', h2, rfl⟩ := h2
    obtain ⟨h3, h4⟩ := step_append (Or.inr rfl) h1
    rw [List.cons_append, lexFuel_step] at h'
    rcases h4 with h4 | ⟨-, rfl, rfl, h4⟩
    · rw [h4] at h'
      simp only [Option.bind_some, Option.map_eq_some_iff, List.append_assoc] at h'
      obtain ⟨ts'', h5, h6⟩ := h'
      rw [List.append_cancel_left h6] at h5
      intro k hk
      obtain ⟨k, rfl⟩ : ∃ j, k = j + 1 := ⟨k - 1, by simp at hk; omega⟩
      rw [List.cons_append, lexFuel_step, h4]
      have := lex_append_brace h2 h5 hr k (by simp at hk ⊢; omega)
      simp [this]
    · rw [h4] at h'
      have e : ∀ n, lexFuel n [] = some [] := by intro n; cases n <;> rfl
      rw [e] at h2
      simp [e] at h'

end Gopoet
