import Verif.Spec.Fmt
import Verif.Proof.QuoteLemmas
import Verif.Proof.RenderLemmas
import Verif.Props.Code
/-!
# Property C32: formats
-/

namespace Gopoet
open FormatPiece

/-! ## C32 -/

theorem sprintf_text (tbl : Nat → Bool) : ∀ (s f : GoString) (args : List Shown), (37 : UInt8) ∉ s →
    sprintf tbl (s ++ f) args = (sprintf tbl f args).map (s ++ ·)
  | [], f, args, _ => by simp
  | c :: s, f, args, h => by
    simp only [List.mem_cons, not_or] at h
    have hc : c ≠ 37 := fun e => h.1 e.symm
    have ih := sprintf_text tbl s f args h.2
    rw [List.cons_append]
    cases hs : s ++ f with
    | nil =>
      rw [hs] at ih
      obtain ⟨rfl, rfl⟩ := List.append_eq_nil_iff.1 hs
      cases args <;> simp [sprintf, hc]
    | cons v rest =>
      rw [hs] at ih
      rw [sprintf.eq_def]
      simp only [if_neg hc, ih, Option.map_map]
      rfl

theorem decimalText_decInt (n : Int) : DecimalText (decInt n) n := by
  cases n with
  | ofNat n =>
    exact .inl ⟨Int.natCast_nonneg n, decDigits_ne_nil n, decNum_decDigits n⟩
  | negSucc n =>
    refine .inr ⟨Int.negSucc_lt_zero n, _, rfl, decDigits_ne_nil _, ?_⟩
    rw [decNum_decDigits]
    rfl

/-- One piece that uses its arguments. -/
theorem sprintf_piece (tbl : Nat → Bool) (p : FormatPiece) (hp : p.Ok) (hm : ∀ v, p ≠ .missing v) :
    ∃ w, p.Gives w ∧ ∀ f args, sprintf tbl (p.format ++ f) (p.args ++ args)
      = (sprintf tbl f args).map (w ++ ·) := by
  have verb : ∀ (v : UInt8) (a : Shown) (w : GoString), v ≠ 37 → fmtVerb tbl v a = some w →
      ∀ f args, sprintf tbl (37 :: v :: f) (a :: args) = (sprintf tbl f args).map (w ++ ·) := by
    intro v a w hv hw f args
    rw [sprintf.eq_def]
    simp only [if_true, if_neg hv, hw]
    cases sprintf tbl f args <;> rfl
  cases p with
  | text s => exact ⟨s, .text s, fun f args => sprintf_text tbl s f args hp⟩
  | percent =>
    refine ⟨_, .percent, fun f args => ?_⟩
    show sprintf tbl (37 :: 37 :: f) args = _
    rw [sprintf.eq_def]
    rfl
  | str v s =>
    refine ⟨s, .str v s, fun f args => ?_⟩
    cases v
    · exact verb 115 _ _ (by decide) rfl f args
    · exact verb 118 _ _ (by decide) rfl f args
  | quoted s =>
    refine ⟨quote tbl s, .quoted ?_, fun f args => verb 113 _ _ (by decide) rfl f args⟩
    have := stringLit_quote tbl s []
    simpa using this
  | num v n =>
    refine ⟨decInt n, .num (decimalText_decInt n), fun f args => ?_⟩
    cases v
    · exact verb 100 _ _ (by decide) rfl f args
    · exact verb 118 _ _ (by decide) rfl f args
  | missing v => exact absurd rfl (hm v)

/-- One piece for which there is no argument. -/
theorem sprintf_missing (tbl : Nat → Bool) (p : FormatPiece) (hp : p.Ok) (ha : p.args = []) :
    ∃ w, p.Gives w ∧ ∀ f, sprintf tbl (p.format ++ f) [] = (sprintf tbl f []).map (w ++ ·) := by
  by_cases hm : ∀ v, p ≠ .missing v
  · obtain ⟨w, hw, h⟩ := sprintf_piece tbl p hp hm
    refine ⟨w, hw, fun f => ?_⟩
    have := h f []
    rwa [ha] at this
  · obtain ⟨v, rfl⟩ : ∃ v, p = .missing v := by
      by_contra h
      exact hm fun v hv => h ⟨v, hv⟩
    refine ⟨_, .missing v, fun f => ?_⟩
    have hv : v ≠ 37 := by rintro rfl; revert hp; simp [FormatPiece.Ok]
    show sprintf tbl (37 :: v :: f) [] = _
    rw [sprintf.eq_def]
    simp only [if_true, if_neg hv]
    rw [if_pos (show v = 115 ∨ v = 118 ∨ v = 100 ∨ v = 113 from hp)]

/-- C32: `Printf` gives, for a format that consists of pieces, what these give, in order, each verb
with the next argument; verbs for which no argument is left give a note. -/
theorem C32_printf (env : Env) (h : Heap) (ps missing : List FormatPiece) (args : List Arg)
    (hok : ∀ p ∈ ps ++ missing, p.Ok) (hps : ∀ v, .missing v ∉ ps)
    (hm : ∀ p ∈ missing, p.args = [])
    (hargs : args.map (Arg.shown env.isPrint h) = ps.flatMap FormatPiece.args) :
    ∃ ws, List.Forall₂ FormatPiece.Gives (ps ++ missing) ws ∧
      fprintf env h ((ps ++ missing).flatMap FormatPiece.format) args = ws.flatten := by
  have key : ∀ ps : List FormatPiece, (∀ p ∈ ps ++ missing, p.Ok) → (∀ v, .missing v ∉ ps) →
      ∃ ws, List.Forall₂ FormatPiece.Gives (ps ++ missing) ws ∧
        sprintf env.isPrint ((ps ++ missing).flatMap FormatPiece.format) (ps.flatMap FormatPiece.args)
          = some ws.flatten := by
    intro ps
    induction ps with
    | cons p ps ih =>
      intro hok hps
      obtain ⟨ws, hws, hs⟩ := ih (fun q hq => hok q (List.mem_cons_of_mem _ hq))
        (fun v hv => hps v (List.mem_cons_of_mem _ hv))
      obtain ⟨w, hw, hp⟩ := sprintf_piece env.isPrint p (hok p (by simp))
        (fun v hv => hps v (by simp [hv]))
      refine ⟨w :: ws, .cons hw hws, ?_⟩
      rw [List.cons_append, List.flatMap_cons, List.flatMap_cons, hp, hs]
      rfl
    | nil =>
      intro hmiss _
      simp only [List.nil_append, List.flatMap_nil] at hmiss ⊢
      clear hargs hps hok
      induction missing with
      | nil => exact ⟨[], .nil, rfl⟩
      | cons p ms ih =>
        obtain ⟨ws, hws, hs⟩ := ih (fun q hq => hm q (List.mem_cons_of_mem _ hq))
          (fun q hq => hmiss q (List.mem_cons_of_mem _ hq))
        obtain ⟨w, hw, hp⟩ := sprintf_missing env.isPrint p (hmiss p (by simp)) (hm p (by simp))
        refine ⟨w :: ws, .cons hw hws, ?_⟩
        rw [List.flatMap_cons, hp, hs]
        rfl
  obtain ⟨ws, hws, hs⟩ := key ps hok hps
  exact ⟨ws, hws, by rw [fprintf, hargs, hs]⟩

/-- What is described consists of pieces. -/
theorem sprintf_pieces (tbl : Nat → Bool) (f : GoString) (shown : List Shown) :
    ∀ s, sprintf tbl f shown = some s → ∃ ps missing, Describes ps missing f shown := by
  have cons : ∀ (p : FormatPiece) {f shown}, p.Ok → (∀ v, p ≠ .missing v) →
      (∃ ps missing, Describes ps missing f shown) →
      ∃ ps missing, Describes ps missing (p.format ++ f) (p.args ++ shown) := by
    rintro p f shown hp hm ⟨ps, ms, h1, h2, h3, h4, h5⟩
    refine ⟨p :: ps, ms, ?_, ?_, h3, by simp [h4], by simp [h5]⟩
    · intro q hq
      rcases List.mem_cons.1 hq with rfl | hq
      · exact hp
      · exact h1 q hq
    · intro v hv
      rcases List.mem_cons.1 hv with e | hv
      · exact hm v e.symm
      · exact h2 v hv
  have miss : ∀ (v : UInt8) {f}, (FormatPiece.missing v).Ok →
      (∃ ps missing, Describes ps missing f []) →
      ∃ ps missing, Describes ps missing ([37, v] ++ f) [] := by
    rintro v f hv ⟨ps, ms, h1, h2, h3, h4, h5⟩
    have h6 : ∀ p ∈ ps, p.args = [] := by
      intro p hp
      have := h5.symm
      rw [List.flatMap_eq_nil_iff] at this
      exact this p hp
    refine ⟨[], .missing v :: (ps ++ ms), ?_, by simp, ?_, by simp [h4, FormatPiece.format], rfl⟩
    · intro q hq
      rcases List.mem_cons.1 hq with rfl | hq
      · exact hv
      · exact h1 q hq
    · intro q hq
      rcases List.mem_cons.1 hq with rfl | hq
      · rfl
      · rcases List.mem_append.1 hq with hq | hq
        · exact h6 q hq
        · exact h3 q hq
  fun_induction sprintf tbl f shown with
  | case1 => exact fun _ _ => ⟨[], [], by simp [Describes]⟩
  | case2 => simp
  | case3 => simp
  | case4 c args hc ha =>
    intro _ _
    obtain rfl : args = [] := by simpa using ha
    exact cons (.text [c]) (f := []) (shown := []) (by simpa [FormatPiece.Ok] using fun e => hc e.symm) (by simp)
      ⟨[], [], by simp [Describes]⟩
  | case5 => simp
  | case6 rest args ih =>
    intro s hs
    obtain ⟨y, hy, _⟩ := Option.map_eq_some_iff.1 hs
    exact cons .percent trivial (by simp) (ih y hy)
  | case7 v rest hv hv' ih =>
    intro s hs
    obtain ⟨y, hy, _⟩ := Option.map_eq_some_iff.1 hs
    exact miss v hv' (ih y hy)
  | case8 => simp
  | case9 v rest hv a args x y hy hx ih =>
    intro s hs
    have ih := ih y hy
    cases a with
    | str t =>
      simp only [fmtVerb] at hx
      split at hx
      · next e =>
        rcases e with rfl | rfl
        · exact cons (.str false t) trivial (by simp) ih
        · exact cons (.str true t) trivial (by simp) ih
      · split at hx
        · next e => subst e; exact cons (.quoted t) trivial (by simp) ih
        · simp at hx
    | int n =>
      simp only [fmtVerb] at hx
      split at hx
      · next e =>
        rcases e with rfl | rfl
        · exact cons (.num false n) trivial (by simp) ih
        · exact cons (.num true n) trivial (by simp) ih
      · simp at hx
    | other => simp [fmtVerb] at hx
  | case10 => simp
  | case11 c v rest args hc ih =>
    intro s hs
    obtain ⟨y, hy, _⟩ := Option.map_eq_some_iff.1 hs
    exact cons (.text [c]) (by simpa [FormatPiece.Ok] using fun e => hc e.symm) (by simp) (ih y hy)

/-- C32: every other call is left to `fmt`, with the same format and arguments. -/
theorem C32_printf_other (env : Env) (h : Heap) (format : GoString) (args : List Arg)
    (hn : ∀ ps missing, ¬ Describes ps missing format (args.map (Arg.shown env.isPrint h))) :
    fprintf env h format args = env.fmtOther h format args := by
  rw [fprintf]
  cases hs : sprintf env.isPrint format (args.map (Arg.shown env.isPrint h)) with
  | none => rfl
  | some s =>
    obtain ⟨ps, ms, hd⟩ := sprintf_pieces env.isPrint _ _ s hs
    exact absurd hd (hn ps ms)

/-- C32: so are the calls with an argument without a text. -/
theorem C32_printf_no_text (env : Env) (h : Heap) (format : GoString) (args : List Arg)
    (hn : ∃ a ∈ args, a.HasNoText h) :
    fprintf env h format args = env.fmtOther h format args := by
  apply C32_printf_other
  rintro ps ms ⟨_, _, _, _, h5⟩
  obtain ⟨a, ha, hn⟩ := hn
  have hother : a.shown env.isPrint h = .other := by
    cases a <;> simp_all [Arg.HasNoText, Arg.shown, deref, Outcome.bind, Shown.ofString]
  have hmem : Shown.other ∈ ps.flatMap FormatPiece.args := by
    rw [← h5, ← hother]
    exact List.mem_map_of_mem ha
  obtain ⟨p, _, hp⟩ := List.mem_flatMap.1 hmem
  cases p <;> simp [FormatPiece.args] at hp

example : (Arg.typeSpec 99).HasNoText exFiles := rfl
example : fprintf exEnv exFiles (b! "%x") [.int 3] = exEnv.fmtOther exFiles (b! "%x") [.int 3] := by
  decide +kernel

example : fprintf exEnv exFiles (b! "x = 5%% of %d; %s(%q, %v)%s")
    [.int (-120), .symbol ⟨⟨b! "x/y", b! "y"⟩, b! "F"⟩, .str (b! "a\"b"), .int 0]
    = b! "x = 5% of -120; y.F(\"a\\\"b\", 0)%!s(MISSING)" := by decide +kernel
example : DecimalText (b! "-120") (-120) := .inr ⟨by decide, b! "120", rfl, by decide, by decide⟩
example : ¬ DecimalText (b! "007") 7 := by
  rintro (⟨_, _, h⟩ | ⟨h, _⟩)
  · revert h; decide
  · omega

end Gopoet
