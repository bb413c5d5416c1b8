import Mathlib.Tactic.ByContra
import Verif.Spec.Code
import Verif.Proof.HeapLemmas
import Verif.Props.Imports
import Verif.Proof.NamedLemmas
import Verif.Props.Output
/-!
# Properties C32 and C33: code blocks
-/

namespace Gopoet
open Imports

/-! ## C32 -/

theorem concatText_append {α} (f : α → Outcome GoString) (a b : List α) :
    concatText f (a ++ b)
      = (concatText f a).bind fun x => (concatText f b).bind fun y => .ok (x ++ y) := by
  induction a with
  | nil => cases h : concatText f b <;> simp [concatText, Outcome.bind, h]
  | cons c a ih =>
    simp only [List.cons_append, concatText, ih]
    change Outcome.bind _ _ = Outcome.bind (Outcome.bind _ _) _
    cases f c with
    | panic => rfl
    | hang => rfl
    | ok x =>
      change Outcome.bind (Outcome.bind _ _) _ = Outcome.bind (Outcome.bind _ _) _
      cases concatText f a with
      | panic => rfl
      | hang => rfl
      | ok y =>
        cases concatText f b with
        | panic => rfl
        | hang => rfl
        | ok z => simp [Outcome.bind]

/-- C32: a block to which another was added renders as the two, one after the other. -/
theorem C32_addCode (env : Env) (h : Heap) (a b : CodeBlock) :
    codeText env h (a.addCode b)
      = (codeText env h a).bind fun x => (codeText env h b).bind fun y => .ok (x ++ y) :=
  concatText_append _ a b

theorem sprintf_str (tbl : Nat → Bool) (s : GoString) : sprintf tbl (b! "%s") [.str s] = some s := by
  simp [sprintf, fmtVerb]

theorem sprintf_str_newline (tbl : Nat → Bool) (s : GoString) :
    sprintf tbl (b! "%s\n") [.str s] = some (s ++ b! "\n") := by
  simp [sprintf, fmtVerb]

/-- Where `fmt` is described, `Printlnf` is `Printf` and a newline. -/
theorem sprintf_newline (tbl : Nat → Bool) : ∀ (f : GoString) (args : List Shown) (s : GoString),
    sprintf tbl f args = some s → sprintf tbl (f ++ b! "\n") args = some (s ++ b! "\n")
  | [], [], s, h => by
    simp only [sprintf, Option.some.injEq] at h
    subst h; rfl
  | [], _ :: _, s, h => by simp [sprintf] at h
  | [c], args, s, h => by
    by_cases hc : c = 37
    · simp [sprintf, hc] at h
    · cases args with
      | nil =>
        simp only [sprintf, if_neg hc, List.isEmpty_nil, if_true, Option.some.injEq] at h
        subst h
        simp [sprintf, hc]
      | cons a args => simp [sprintf, hc] at h
  | c :: v :: rest, args, s, h => by
    rw [sprintf.eq_def] at h
    rw [List.cons_append, List.cons_append, sprintf.eq_def]
    simp only at h ⊢
    by_cases hc : c = 37
    · rw [if_pos hc] at h ⊢
      by_cases hv : v = 37
      · rw [if_pos hv] at h ⊢
        obtain ⟨x, hx, rfl⟩ := Option.map_eq_some_iff.1 h
        rw [sprintf_newline tbl rest args x hx]; rfl
      · rw [if_neg hv] at h ⊢
        cases args with
        | nil =>
          simp only at h ⊢
          split at h
          · rename_i hverb
            rw [if_pos hverb]
            obtain ⟨x, hx, rfl⟩ := Option.map_eq_some_iff.1 h
            rw [sprintf_newline tbl rest [] x hx]; simp
          · simp at h
        | cons a args =>
          simp only at h ⊢
          cases h1 : fmtVerb tbl v a with
          | none => simp [h1] at h
          | some x =>
            cases h2 : sprintf tbl rest args with
            | none => simp [h1, h2] at h
            | some y =>
              simp only [h1, h2, Option.some.injEq] at h
              subst h
              simp [sprintf_newline tbl rest args y h2]
    · rw [if_neg hc] at h ⊢
      obtain ⟨x, hx, rfl⟩ := Option.map_eq_some_iff.1 h
      have := sprintf_newline tbl (v :: rest) args x hx
      rw [List.cons_append] at this
      rw [this]; rfl

/-- C32: `Printlnf` renders what `Printf` renders, and a newline. -/
theorem C32_printlnf (env : Env) (h : Heap) (format : GoString) (args : List Arg) (s : GoString)
    (hs : sprintf env.isPrint format (args.map (Arg.shown env.isPrint h)) = some s) :
    fprintf env h format args = s ∧
    fprintf env h (format ++ b! "\n") args = fprintf env h format args ++ b! "\n" := by
  have h1 : fprintf env h format args = s := by rw [fprintf, hs]
  refine ⟨h1, ?_⟩
  rw [h1, fprintf, sprintf_newline _ _ _ _ hs]

/-- What a call can do to a heap: allocate. -/
structure Grows (h h' : Heap) : Prop where
  next : h.next ≤ h'.next
  args : ∀ p < h.next, h'.args p = h.args p
  templs : ∀ p < h.next, h'.templs p = h.templs p

theorem Grows.refl (h : Heap) : Grows h h := ⟨Nat.le_refl _, fun _ _ => rfl, fun _ _ => rfl⟩

theorem Grows.trans {h h' h'' : Heap} (a : Grows h h') (b : Grows h' h'') : Grows h h'' :=
  ⟨Nat.le_trans a.next b.next,
    fun p hp => (b.args p (Nat.lt_of_lt_of_le hp a.next)).trans (a.args p hp),
    fun p hp => (b.templs p (Nat.lt_of_lt_of_le hp a.next)).trans (a.templs p hp)⟩

theorem grows_allocArgs (h : Heap) (args : List Arg) : Grows h (h.allocArgs args).2 :=
  ⟨Nat.le_succ _, fun _ hp => upd_ne _ _ (Nat.ne_of_lt hp), fun _ _ => rfl⟩

theorem grows_exec (st : CodeBlock × Heap) (op : CodeOp) : Grows st.2 (op.exec st).2 := by
  cases op with
  | print t => exact grows_allocArgs _ _
  | println t => exact grows_allocArgs _ _
  | printf f a => exact grows_allocArgs _ _
  | printlnf f a => exact grows_allocArgs _ _
  | renderCode t d => exact ⟨Nat.le_succ _, fun _ _ => rfl, fun _ hp => upd_ne _ _ (Nat.ne_of_lt hp)⟩
  | addCode c => exact Grows.refl _

theorem grows_run (ops : List CodeOp) (st : CodeBlock × Heap) :
    Grows st.2 (ops.foldl CodeOp.exec st).2 := by
  induction ops generalizing st with
  | nil => exact Grows.refl _
  | cons op ops ih => exact (grows_exec st op).trans (ih _)

/-- What one call adds to the block, seen from any later heap. -/
theorem exec_adds (env : Env) (st : CodeBlock × Heap) (op : CodeOp) (h' : Heap)
    (hg : Grows (op.exec st).2 h') :
    ∃ new, (op.exec st).1 = st.1 ++ new ∧ codeText env h' new = op.means env h' := by
  have line : ∀ f args, Grows (st.2.allocArgs args).2 h' →
      codeText env h' [.line f st.2.next] = .ok (fprintf env h' f args) := by
    intro f args hg
    have ha : h'.args st.2.next = some args := by
      rw [hg.args _ (by simp [Heap.allocArgs])]; simp [Heap.allocArgs]
    simp [codeText, concatText, CodeElem.text, deref, ha]
  cases op with
  | print t =>
    refine ⟨_, rfl, (line _ _ hg).trans ?_⟩
    rw [CodeOp.means, fprintf]; simp [Arg.shown, sprintf_str]
  | println t =>
    refine ⟨_, rfl, (line _ _ hg).trans ?_⟩
    have : b! "%s" ++ b! "\n" = b! "%s\n" := rfl
    rw [CodeOp.means, fprintf, this]
    simp [Arg.shown, sprintf_str_newline]
  | printf f a => exact ⟨_, rfl, line _ _ hg⟩
  | printlnf f a => exact ⟨_, rfl, line _ _ hg⟩
  | renderCode t d =>
    refine ⟨_, rfl, ?_⟩
    have ha : h'.templs st.2.next = some ⟨t, d⟩ := by
      rw [hg.templs _ (by simp [CodeOp.exec, CodeBlock.renderCode])]
      simp [CodeOp.exec, CodeBlock.renderCode]
    simp only [codeText, concatText, CodeElem.text, deref, ha, CodeOp.means, Outcome.bind_ok]
    cases env.exec h' t d <;> simp
  | addCode c => exact ⟨c, rfl, rfl⟩

theorem sequence_aux (env : Env) (ops : List CodeOp) (st : CodeBlock × Heap) (h' : Heap)
    (hg : Grows (ops.foldl CodeOp.exec st).2 h') :
    codeText env h' (ops.foldl CodeOp.exec st).1
      = (codeText env h' st.1).bind fun x => (concatText (CodeOp.means env h') ops).bind fun y =>
        .ok (x ++ y) := by
  induction ops generalizing st with
  | nil => cases h : codeText env h' st.1 <;> simp [concatText, Outcome.bind, h]
  | cons op ops ih =>
    rw [List.foldl_cons] at hg ⊢
    rw [ih _ hg]
    obtain ⟨new, h1, h2⟩ := exec_adds env st op h' ((grows_run ops _).trans hg)
    have h3 := concatText_append (CodeElem.text env h') st.1 new
    have h4 : concatText (CodeElem.text env h') new = op.means env h' := h2
    rw [h4] at h3
    rw [codeText, h1, h3]
    simp only [concatText, codeText]
    cases concatText (CodeElem.text env h') st.1 with
    | panic => rfl
    | hang => rfl
    | ok x =>
      cases op.means env h' with
      | panic => rfl
      | hang => rfl
      | ok y =>
        cases concatText (CodeOp.means env h') ops with
        | panic => rfl
        | hang => rfl
        | ok z => simp [Outcome.bind]

/-- C32: a block built by any sequence of calls renders as what was there before followed by what each
call stands for, in order; `Print` and `Println` give their text as it is, whatever it contains. -/
theorem C32_sequence (env : Env) (ops : List CodeOp) (cb cb' : CodeBlock) (h h' : Heap)
    (hrun : ops.foldl CodeOp.exec (cb, h) = (cb', h')) :
    codeText env h' cb'
      = (codeText env h' cb).bind fun x => (concatText (CodeOp.means env h') ops).bind fun y =>
        .ok (x ++ y) := by
  have := sequence_aux env ops (cb, h) h' (by rw [hrun]; exact Grows.refl _)
  rwa [hrun] at this

/-- C32: a function body made of `Print` and `Println` calls is the concatenation of the texts. -/
theorem C32_prints (env : Env) (texts : List (GoString × Bool)) (h : Heap) :
    codeText env ((texts.map fun t => if t.2 then CodeOp.println t.1 else CodeOp.print t.1).foldl
        CodeOp.exec ([], h)).2
      ((texts.map fun t => if t.2 then CodeOp.println t.1 else CodeOp.print t.1).foldl
        CodeOp.exec ([], h)).1
      = .ok (texts.flatMap fun t => t.1 ++ if t.2 then b! "\n" else []) := by
  rw [C32_sequence env _ [] _ h _ rfl]
  generalize (List.foldl CodeOp.exec ([], h) _).2 = h'
  have : concatText (CodeOp.means env h')
      (texts.map fun t => if t.2 then CodeOp.println t.1 else CodeOp.print t.1)
      = .ok (texts.flatMap fun t => t.1 ++ if t.2 then b! "\n" else []) := by
    induction texts with
    | nil => rfl
    | cons t ts ih =>
      rw [List.map_cons, concatText, ih]
      cases ht : t.2 <;> simp [CodeOp.means, ht]
  rw [this]; rfl

/-- A line without reference arguments is left alone by a qualification pass. -/
theorem QSteps.args_plain {h i h' i'} (a : QSteps h i h' i') {p : Ptr} {l : List Arg}
    (hp : h.args p = some l) (hl : ∀ g j, qualifyArgList g l j = (.ok (), l, j)) :
    h'.args p = some l := by
  induction a with
  | refl => exact hp
  | step _ s ih =>
    cases s with
    | args ha hq =>
      rename_i q l1 l2 _
      simp only
      by_cases hpq : p = q
      · subst hpq
        rw [ih] at ha
        obtain rfl := Option.some.inj ha
        rw [hl] at hq
        simp only [Prod.mk.injEq] at hq
        rw [← hq.2.1]; simp
      · rw [upd_ne _ _ hpq]; exact ih
    | _ => exact ih

/-- C32: qualification, for whichever files and however often, does not touch printed text. -/
theorem C32_print_survives_qualification {h i h' i'} (a : QSteps h i h' i') (cb : CodeBlock)
    (text : GoString) {g : Heap} (hg : Grows (cb.print text g).2 h) (env : Env) :
    ∃ e, (cb.print text g).1 = cb ++ [e] ∧ CodeElem.text env h' e = .ok text := by
  refine ⟨.line (b! "%s") g.next, rfl, ?_⟩
  have ha : h.args g.next = some [.str text] := by
    rw [hg.args _ (by simp [CodeBlock.print, CodeBlock.printf, Heap.allocArgs])]
    simp [CodeBlock.print, CodeBlock.printf, Heap.allocArgs]
  have := a.args_plain ha (fun _ _ => rfl)
  simp [CodeElem.text, deref, this, fprintf, Arg.shown, sprintf_str]

example : (let st := [CodeOp.print (b! "100%s %d%%"), .println (b! "\"x\"")].foldl CodeOp.exec ([], {})
    codeText exEnv st.2 st.1) = .ok (b! "100%s %d%%\"x\"\n") := by decide
/- `Printf` does interpret its format. -/
example : (let st := CodeOp.exec ([], {}) (.printf (b! "a%%b %s %d %q")
      [.str (b! "s"), .int (-3), .str (b! "q\"")])
    codeText exEnv st.2 st.1) = .ok (b! "a%b s -3 \"q\\\"\"") := by decide

/-! ## C33 -/

/-- Registrations are calls. -/
theorem Evolves.reachable {P : Package → Prop} {i j : Imports} (h : Evolves P i j)
    (hi : Reachable i) : Reachable j := by
  induction h with
  | refl => exact hi
  | step _ hs ih =>
    obtain ⟨pkg, q, _, hown, hnone, hff, rfl⟩ := hs
    obtain ⟨q', hf', hq'⟩ := prefixForPackage_new (n := pkg.name) hown hnone
    obtain rfl := hff.unique hf'
    have := ih.exec (.registerImport pkg.importPath pkg.name)
    simpa only [Call.exec, registerImport, hq'] using this

theorem prefixOf_own {i : Imports} {p : GoString} (h : p = i.pkgPath) : prefixOf i p = [] := by
  simp [prefixOf, prefixFor, prefixForPackage_own h]

theorem prefixOf_known {i : Imports} {p : GoString} {d : ImportDef} (h : p ≠ i.pkgPath)
    (hg : i.importsByPath.get p = some d) : prefixOf i p = d.packageName ++ b! "." := by
  simp [prefixOf, prefixFor, prefixForPackage_known h hg]

theorem prefixOf_unknown {i : Imports} {p : GoString} (h : p ≠ i.pkgPath)
    (hg : i.importsByPath.get p = none) : prefixOf i p = [] := by
  simp [prefixOf, prefixFor, prefixForPackage_unknown h hg]

theorem prefixOf_name {i : Imports} {p : GoString} (h : p ≠ i.pkgPath) :
    (prefixOf i p).dropLast = i.nameIn p := by
  cases hg : i.importsByPath.get p with
  | none => simp [prefixOf_unknown h hg, Imports.nameIn, hg]
  | some d => simp [prefixOf_known h hg, Imports.nameIn, hg]

theorem withPrefix_prefixOf (i : Imports) :
    (Symbol.withPrefix i.pkgPath fun p => (prefixOf i p).dropLast) = i.symIn := by
  funext s
  unfold Imports.symIn Symbol.withPrefix
  by_cases hb : s.package.name = [] ∧ s.package.importPath = []
  · rw [if_pos hb, if_pos hb]
  · rw [if_neg hb, if_neg hb]
    by_cases ho : s.package.importPath = i.pkgPath
    · rw [if_pos ho, if_pos ho]
    · rw [if_neg ho, if_neg ho]; simp only [prefixOf_name ho]

theorem symIn_string {i : Imports} (hi : Inv i) {s : Symbol} (hc : Covered i s) :
    (i.symIn s).string = writtenSymbol i s := by
  unfold writtenSymbol Imports.symIn Symbol.withPrefix
  by_cases hb : s.package.name = [] ∧ s.package.importPath = []
  · have hp : s.package = ⟨[], []⟩ := by
      cases hs : s.package; simp_all
    rw [if_pos hb, if_pos hp, Symbol.string, if_neg (by simp [hb.1])]
  · have hp : s.package ≠ ⟨[], []⟩ := by
      intro h; apply hb; simp [h]
    rw [if_neg hb, if_neg hp]
    by_cases ho : s.package.importPath = i.pkgPath
    · rw [if_pos ho, prefixOf_own ho]; simp [Symbol.string]
    · rw [if_neg ho]
      rcases hc with hc | hc | hc
      · exact absurd hc hb
      · exact absurd hc ho
      · cases hg : i.importsByPath.get s.package.importPath with
        | none => exact absurd hg hc
        | some d =>
          rw [prefixOf_known ho hg]
          simp [Symbol.string, Imports.nameIn, hg, hi.nonempty _ _ hg]

/-- Once a path has a prefix it keeps it. -/
theorem Ext.prefixOf {i j : Imports} (h : Ext i j) {p : GoString}
    (hc : p = i.pkgPath ∨ i.importsByPath.get p ≠ none) : prefixOf j p = prefixOf i p := by
  by_cases ho : p = i.pkgPath
  · rw [prefixOf_own ho, prefixOf_own (h.own ▸ ho)]
  · cases hg : i.importsByPath.get p with
    | none => rcases hc with hc | hc; exacts [absurd hc ho, absurd hg hc]
    | some d => rw [prefixOf_known ho hg, prefixOf_known (h.own ▸ ho) (h.keeps _ _ hg)]

theorem Ext.writtenSymbol {i j : Imports} (h : Ext i j) {s : Symbol} (hc : Covered i s) :
    writtenSymbol j s = writtenSymbol i s := by
  unfold Gopoet.writtenSymbol
  split
  · rfl
  · rename_i hp
    rcases hc with hc | hc
    · refine absurd ?_ hp
      cases hs : s.package
      obtain ⟨h1, h2⟩ := hc
      simp_all
    · rw [h.prefixOf hc]

theorem ensureImported_eq (s : Symbol) (i : Imports) :
    ∃ j, ensureImported s i = (.ok (j.symIn s), j) ∧ Covered j s ∧ Evolves (fun _ => True) i j := by
  obtain ⟨j, hj, hc⟩ := qualify_ok s true i (.inl rfl)
  have := runs_true (runs_ensureImported s) i
  rw [ensureImported, hj] at this
  exact ⟨j, hj, hc, this⟩

theorem registerPackage_eq (p : Package) (i : Imports) :
    ∃ j, registerPackage p i = (.ok (prefixOf j p.importPath).dropLast, j) ∧
      (p.importPath = j.pkgPath ∨ j.importsByPath.get p.importPath ≠ none) ∧
      Evolves (fun _ => True) i j := by
  obtain ⟨a, j, h1, h2⟩ := registerImport_ok p.importPath p.name i
  have hev := runs_true (runs_registerPackage p) i
  have hr : registerPackage p i = (.ok (trimDot a), j) := by
    rw [registerPackage, registerImportForPackage, IM.bind_ok h1]; rfl
  rw [hr] at hev
  by_cases ho : p.importPath = j.pkgPath
  · refine ⟨j, ?_, .inl ho, hev⟩
    rw [prefixFor, prefixForPackage_own ho] at h2
    simp only [Prod.mk.injEq, Outcome.ok.injEq, and_true] at h2
    rw [hr, prefixOf_own ho, ← h2]; rfl
  · cases hg : j.importsByPath.get p.importPath with
    | none => rw [prefixFor, prefixForPackage_unknown ho hg] at h2; simp at h2
    | some d =>
      refine ⟨j, ?_, .inr (by simp [hg]), hev⟩
      rw [prefixFor, prefixForPackage_known ho hg] at h2
      simp only [Prod.mk.injEq, Outcome.ok.injEq, and_true] at h2
      rw [hr, prefixOf_known ho hg, ← h2, trimDot_dot]; simp

/-- An argument from which a method reference must first be computed. -/
def Arg.indirect : Arg → Bool
  | .ifaceMethod _ | .func _ | .goObject _ _ => true
  | _ => false

/-- The reference, if it is a method, is stored in place of the argument `a`: either `a` is a
`MethodReference` already, or the package of the method's type gets another name in the file than
the reference has. -/
def Stored (a : Arg) (j : Imports) : Reference → Prop
  | .method m => a.indirect = true → m.type.package ≠ ⟨[], []⟩ ∧
      (prefixOf j m.type.package.importPath).dropLast ≠ m.type.package.name
  | _ => True

theorem symIn_ne {j : Imports} {s : Symbol} (h1 : s.package ≠ ⟨[], []⟩)
    (h2 : (prefixOf j s.package.importPath).dropLast ≠ s.package.name) : j.symIn s ≠ s := by
  intro he
  rw [← withPrefix_prefixOf, Symbol.withPrefix, if_neg] at he
  · by_cases ho : s.package.importPath = j.pkgPath
    · rw [if_pos ho] at he
      rw [prefixOf_own ho] at h2
      exact h2 (by rw [← he]; rfl)
    · rw [if_neg ho] at he
      apply h2
      conv => rhs; rw [← he]
  · rintro ⟨h3, h4⟩
    apply h1
    cases hs : s.package; simp_all

theorem symIn_same {j : Imports} {s : Symbol} (h : s.package = ⟨[], []⟩ ∨
    (prefixOf j s.package.importPath).dropLast = s.package.name) : j.symIn s = s := by
  rw [← withPrefix_prefixOf, Symbol.withPrefix]
  split
  · rfl
  · rename_i hb
    rcases h with h | h
    · rw [h] at hb; simp at hb
    · split
      · rename_i ho
        rw [prefixOf_own ho] at h
        rw [show ([] : GoString) = s.package.name from h]
      · rw [h]

/-- The full claim of C33: after qualification, a reference argument of any kind renders, then and
after any later calls, as the reference to the same element with the qualifier that the imports
give. -/
def C33_full : Prop := ∀ (tbl : Nat → Bool) (h : Heap) (i : Imports) (a : Arg) (ref : Reference),
  Reachable i → Denotes h a ref → ref.valid → ∃ a' j, qualifyArg h a i = (.ok a', j) ∧
    ∀ later : List Call, ∃ s, ref.text tbl (j.after later) = .ok s ∧ ∀ g, a'.shown tbl g = .str s

theorem symOrRef_symbol (orig : Arg) (s : Symbol) (i : Imports) :
    ∃ j, qualifySymOrRef orig (.symbol s) i = (.ok (.symbol (j.symIn s)), j) ∧ Covered j s ∧
      Evolves (fun _ => True) i j := by
  obtain ⟨j, hj, hc, hev⟩ := ensureImported_eq s i
  exact ⟨j, by rw [qualifySymOrRef, IM.bind_ok hj]; rfl, hc, hev⟩

theorem symOrRef_method (orig : Arg) (m : MethodReference) (i : Imports) :
    ∃ j, qualifySymOrRef orig (.method m) i
      = (.ok (if j.symIn m.type ≠ m.type then .mrefPtr ⟨j.symIn m.type, m.method⟩ else orig), j) ∧
      Covered j m.type ∧ Evolves (fun _ => True) i j := by
  obtain ⟨j, hj, hc, hev⟩ := ensureImported_eq m.type i
  refine ⟨j, ?_, hc, hev⟩
  rw [qualifySymOrRef, IM.bind_ok hj, IM.ite_apply]
  by_cases h : j.symIn m.type = m.type
  · rw [if_neg (by simpa using h), if_neg (by simpa using h)]; rfl
  · rw [if_pos h, if_pos h]; rfl

/-- What an argument becomes, and what of it will not change any more. -/
theorem qualifyArg_denotes (tbl : Nat → Bool) {h : Heap} {i : Imports} {a : Arg} {ref : Reference}
    (hi : Inv i) (hd : Denotes h a ref) (hv : ref.valid) :
    ∃ a' j, qualifyArg h a i = (.ok a', j) ∧ Evolves (fun _ => True) i j ∧
      (Stored a j ref → ∃ s, (∀ g, a'.shown tbl g = .str s) ∧
        ∀ k, Ext j k → ref.text tbl k = .ok s) ∧ (¬ Stored a j ref → a' = a) := by
  have sym : ∀ (orig : Arg) (s : Symbol), ∃ a' j, qualifySymOrRef orig (.symbol s) i = (.ok a', j) ∧
      Evolves (fun _ => True) i j ∧ ∃ t, (∀ g, a'.shown tbl g = .str t) ∧
        ∀ k, Ext j k → (Reference.symbol s).text tbl k = .ok t := by
    intro orig s
    obtain ⟨j, hj, hc, hev⟩ := symOrRef_symbol orig s i
    have hinv := hev.inv hi
    refine ⟨_, j, hj, hev, writtenSymbol j s, fun g => ?_, fun k hk => ?_⟩
    · rw [Arg.shown, symIn_string hinv hc]
    · rw [Reference.text, hk.writtenSymbol hc]
  have meth : ∀ (orig : Arg) (m : MethodReference), (orig.indirect = false → orig = .mref m ∨
      orig = .mrefPtr m) → ∃ a' j, qualifySymOrRef orig (.method m) i = (.ok a', j) ∧
      Evolves (fun _ => True) i j ∧ (Stored orig j (.method m) → ∃ t, (∀ g, a'.shown tbl g = .str t) ∧
        ∀ k, Ext j k → (Reference.method m).text tbl k = .ok t) ∧ (¬ Stored orig j (.method m) → a' = orig) := by
    intro orig m ho
    obtain ⟨j, hj, hc, hev⟩ := symOrRef_method orig m i
    have hinv := hev.inv hi
    refine ⟨_, j, hj, hev, fun hst => ⟨writtenSymbol j m.type ++ b! "." ++ m.method,
      fun g => ?_, fun k hk => ?_⟩, fun hst => ?_⟩
    · by_cases he : j.symIn m.type = m.type
      · rw [if_neg (by simpa using he)]
        have hs : m.string = writtenSymbol j m.type ++ b! "." ++ m.method := by
          rw [MethodReference.string, ← symIn_string hinv hc, he]
        cases hin : orig.indirect with
        | true =>
          obtain ⟨h1, h2⟩ := hst hin
          exact absurd he (symIn_ne h1 h2)
        | false => rcases ho hin with rfl | rfl <;> simp only [Arg.shown, hs]
      · rw [if_pos he, Arg.shown, MethodReference.string, symIn_string hinv hc]
    · rw [Reference.text, hk.writtenSymbol hc]
    · rw [if_neg (not_not_intro (symIn_same ?_))]
      by_contra hne
      rw [not_or] at hne
      exact hst fun _ => hne
  have typ : ∀ t : TypeName, t.valid = true → ∃ t' j, ensureTypeImported t i = (.ok t', j) ∧
      Evolves (fun _ => True) i j ∧ ∃ s, (∀ g, (Arg.typeName t').shown tbl g = .str s) ∧
        ∀ k, Ext j k → (Reference.type t).text tbl k = .ok s := by
    intro t hv
    obtain ⟨j, hj, hc, hev⟩ := ensureTypeImported_eq (i := i) hv
    obtain ⟨s, hs⟩ := buffer_ok tbl (t := t.mapSymbols j.symIn) (by rw [valid_mapSymbols]; exact hv)
    rw [← string_eq_buffer] at hs
    refine ⟨_, j, hj, hev.mono fun _ _ => trivial, s, fun g => ?_, fun k hk => ?_⟩
    · rw [Arg.shown, hs]; rfl
    · rw [Reference.text, withPrefix_prefixOf, ← hs]
      exact congrArg (TypeName.string tbl) (mapSymbols_congr t fun s hs => hk.symIn (hc s hs))
  have pkg : ∀ p : Package, ∃ n j, registerPackage p i = (.ok n, j) ∧
      Evolves (fun _ => True) i j ∧ ∀ k, Ext j k → (Reference.package p).text tbl k = .ok n := by
    intro p
    obtain ⟨j, hj, hc, hev⟩ := registerPackage_eq p i
    exact ⟨_, j, hj, hev, fun k hk => by rw [Reference.text, hk.prefixOf hc]⟩
  cases hd with
  | package p =>
    obtain ⟨n, j, h1, h2, h3⟩ := pkg p
    refine ⟨if n ≠ p.name then .package ⟨p.importPath, n⟩ else .package p, j, ?_, h2,
      ⟨fun _ => ⟨n, fun g => ?_, h3⟩, fun hn => absurd trivial hn⟩⟩
    · rw [qualifyArg, IM.bind_ok h1, IM.ite_apply]; split <;> rfl
    · split
      · rfl
      · rename_i hn
        rw [ne_eq, not_not] at hn
        rw [hn]; rfl
  | packagePtr p =>
    obtain ⟨n, j, h1, h2, h3⟩ := pkg p
    refine ⟨if n ≠ p.name then .package ⟨p.importPath, n⟩ else .packagePtr p, j, ?_, h2,
      ⟨fun _ => ⟨n, fun g => ?_, h3⟩, fun hn => absurd trivial hn⟩⟩
    · rw [qualifyArg, IM.bind_ok h1, IM.ite_apply]; split <;> rfl
    · split
      · rfl
      · rename_i hn
        rw [ne_eq, not_not] at hn
        rw [hn]; rfl
  | symbol s => obtain ⟨a', j, h1, h2, h3⟩ := sym (.symbol s) s; exact ⟨a', j, h1, h2, fun _ => h3, fun hn => absurd trivial hn⟩
  | symbolPtr s => obtain ⟨a', j, h1, h2, h3⟩ := sym (.symbolPtr s) s; exact ⟨a', j, h1, h2, fun _ => h3, fun hn => absurd trivial hn⟩
  | mref m => exact meth (.mref m) m fun _ => .inl rfl
  | mrefPtr m => exact meth (.mrefPtr m) m fun _ => .inr rfl
  | typeName t =>
    obtain ⟨t', j, h1, h2, h3⟩ := typ t hv
    exact ⟨.typeName t', j, by rw [qualifyArg, IM.bind_ok h1]; rfl, h2, fun _ => h3, fun hn => absurd trivial hn⟩
  | value hc hn hp hf =>
    rename_i p c n f file
    obtain ⟨a', j, h1, h2, h3⟩ := sym (.value p) ⟨⟨file.imports.pkgPath, file.packageName⟩, n⟩
    refine ⟨a', j, ?_, h2, fun _ => h3, fun hn => absurd trivial hn⟩
    have : (deref h.values p).bind (·.toSymbol h)
        = .ok ⟨⟨file.imports.pkgPath, file.packageName⟩, n⟩ := by
      simp [deref, hc, Outcome.bind, ValueSpec.toSymbol, ValueSpec.symbolAt, hn, hp, packageAt, hf,
        GoFile.package]
    rw [qualifyArg, IM.bind_ok (by rw [IM.lift, this])]
    exact h1
  | typeSpec ht hn hp hf =>
    rename_i p t f file
    obtain ⟨a', j, h1, h2, h3⟩ := sym (.typeSpec p) ⟨⟨file.imports.pkgPath, file.packageName⟩, t.name⟩
    refine ⟨a', j, ?_, h2, fun _ => h3, fun hn => absurd trivial hn⟩
    have : (deref h.types p).bind (·.toSymbol h)
        = .ok ⟨⟨file.imports.pkgPath, file.packageName⟩, t.name⟩ := by
      simp [deref, ht, Outcome.bind, TypeSpec.toSymbol, hn, hp, packageAt, hf, GoFile.package]
    rw [qualifyArg, IM.bind_ok (by rw [IM.lift, this])]
    exact h1
  | func hfn hr hp hf =>
    rename_i p fn f file
    obtain ⟨a', j, h1, h2, h3⟩ := sym (.func p) ⟨⟨file.imports.pkgPath, file.packageName⟩, fn.name⟩
    refine ⟨a', j, ?_, h2, fun _ => h3, fun hn => absurd trivial hn⟩
    have : (deref h.funcs p).bind (·.toSymbol h)
        = .ok (.symbol ⟨⟨file.imports.pkgPath, file.packageName⟩, fn.name⟩) := by
      simp [deref, hfn, Outcome.bind, FuncSpec.toSymbol, hr, hp, packageAt, hf, GoFile.package]
    rw [qualifyArg, IM.bind_ok (by rw [IM.lift, this])]
    exact h1
  | method hfn hr hp hf =>
    rename_i p fn r f file
    obtain ⟨a', j, h1, h2, h3⟩ := meth (.func p)
      ⟨⟨⟨file.imports.pkgPath, file.packageName⟩, r.type⟩, fn.name⟩ (by simp [Arg.indirect])
    refine ⟨a', j, ?_, h2, h3⟩
    have : (deref h.funcs p).bind (·.toSymbol h)
        = .ok (.method ⟨⟨⟨file.imports.pkgPath, file.packageName⟩, r.type⟩, fn.name⟩) := by
      simp [deref, hfn, Outcome.bind, FuncSpec.toSymbol, hr, hp, packageAt, hf, GoFile.package]
    rw [qualifyArg, IM.bind_ok (by rw [IM.lift, this])]
    exact h1
  | ifaceMethod hm hp ht hn hpt hf =>
    rename_i p m tp t f file
    obtain ⟨a', j, h1, h2, h3⟩ := meth (.ifaceMethod p)
      ⟨⟨⟨file.imports.pkgPath, file.packageName⟩, t.name⟩, m.name⟩ (by simp [Arg.indirect])
    refine ⟨a', j, ?_, h2, h3⟩
    have : (deref h.methods p).bind (·.toMethodRef h)
        = .ok ⟨⟨⟨file.imports.pkgPath, file.packageName⟩, t.name⟩, m.name⟩ := by
      simp [deref, hm, Outcome.bind, InterfaceMethod.toMethodRef, hp, ht, TypeSpec.toSymbol, hn, hpt,
        packageAt, hf, GoFile.package]
    rw [qualifyArg, IM.bind_ok (by rw [IM.lift, this])]
    exact h1
  | reflectType ht =>
    obtain ⟨t', j, h1, h2, h3⟩ := typ _ hv
    refine ⟨.typeName t', j, ?_, h2, fun _ => h3, fun hn => absurd trivial hn⟩
    rw [qualifyArg, IM.bind_ok (by rw [IM.lift, ht]), IM.bind_ok h1]; rfl
  | goType ht =>
    obtain ⟨t', j, h1, h2, h3⟩ := typ _ hv
    refine ⟨.typeName t', j, ?_, h2, fun _ => h3, fun hn => absurd trivial hn⟩
    rw [qualifyArg, IM.bind_ok (by rw [IM.lift, ht]), IM.bind_ok h1]; rfl
  | goSymbol ho =>
    rename_i o s text
    obtain ⟨a', j, h1, h2, h3⟩ := sym (.goObject o text) s
    refine ⟨a', j, ?_, h2, fun _ => h3, fun hn => absurd trivial hn⟩
    rw [qualifyArg, IM.bind_ok (by rw [IM.lift, ho])]
    exact h1
  | goMethod ho =>
    rename_i o m text
    obtain ⟨a', j, h1, h2, h3⟩ := meth (.goObject o text) m (by simp [Arg.indirect])
    refine ⟨a', j, ?_, h2, h3⟩
    rw [qualifyArg, IM.bind_ok (by rw [IM.lift, ho])]
    exact h1
  | goPackage p text =>
    obtain ⟨n, j, h1, h2, h3⟩ := pkg ⟨p.path, p.name⟩
    refine ⟨.str n, j, ?_, h2, fun _ => ⟨n, fun g => rfl, h3⟩, fun hn => absurd trivial hn⟩
    rw [qualifyArg, IM.bind_ok (by rw [IM.lift, packageForGoType]), IM.bind_ok h1]; rfl

/-- C33: after qualification, a reference argument renders, then and after any later calls, as the
reference to the same element with the qualifier that the imports give.

Missing from the full property: methods given as `*InterfaceMethod`, `*FuncSpec` or `types.Object` if
their type's package has the same name in the file as in its own package clause (`Stored`). -/
theorem C33_reference_text_partial (tbl : Nat → Bool) {h : Heap} {i : Imports} {a : Arg}
    {ref : Reference} (hi : Reachable i) (hd : Denotes h a ref) (hv : ref.valid) :
    ∃ a' j, qualifyArg h a i = (.ok a', j) ∧ (Stored a j ref → ∀ later : List Call,
      ∃ s, ref.text tbl (j.after later) = .ok s ∧ ∀ g, a'.shown tbl g = .str s) := by
  obtain ⟨a', j, h1, h2, h3, -⟩ := qualifyArg_denotes tbl hi.inv hd hv
  refine ⟨a', j, h1, fun hst later => ?_⟩
  obtain ⟨s, h4, h5⟩ := h3 hst
  exact ⟨s, h5 _ (evolves_after later j).ext, h4⟩

/-- C33, exactly: for arguments other than a `types.Object`, the text is the right one if and only if the
argument is no method given as `*InterfaceMethod` or `*FuncSpec` whose type's package has the same name in
the file as in its own package clause. -/
theorem C33_reference_text_iff (tbl : Nat → Bool) {h : Heap} {i : Imports} {a : Arg}
    {ref : Reference} (hi : Reachable i) (hd : Denotes h a ref) (hv : ref.valid)
    (ha : ∀ o text, a ≠ .goObject o text) :
    ∃ a' j, qualifyArg h a i = (.ok a', j) ∧ ((∀ later : List Call,
      ∃ s, ref.text tbl (j.after later) = .ok s ∧ ∀ g, a'.shown tbl g = .str s) ↔ Stored a j ref) := by
  obtain ⟨a', j, h1, h2, h3, h6⟩ := qualifyArg_denotes tbl hi.inv hd hv
  refine ⟨a', j, h1, fun hall => ?_, fun hst later => ?_⟩
  · by_contra hst
    rw [h6 hst] at hall
    obtain ⟨s, h4, h5⟩ := hall []
    have bare : ∀ m : MethodReference, ref = .method m → a.shown tbl h = .str m.method → False := by
      rintro m rfl hsh
      rw [h5 h] at hsh
      simp only [Shown.str.injEq] at hsh
      simp only [Reference.text, Outcome.ok.injEq, hsh] at h4
      have := congrArg List.length h4
      simp only [List.length_append, List.length_cons, List.length_nil] at this
      omega
    cases hd with
    | method hfn hr hp hf =>
      refine bare _ rfl ?_
      simp [Arg.shown, deref, hfn, Outcome.bind, FuncSpec.string, hr, Shown.ofString]
    | ifaceMethod hm hp ht hn hpt hf =>
      refine bare _ rfl ?_
      simp [Arg.shown, deref, hm, Outcome.bind, Shown.ofString]
    | goMethod ho => exact ha _ _ rfl
    | mref m => exact hst fun hc => by simp [Arg.indirect] at hc
    | mrefPtr m => exact hst fun hc => by simp [Arg.indirect] at hc
    | _ => exact hst trivial
  · obtain ⟨s, h4, h5⟩ := h3 hst
    exact ⟨s, h5 _ (evolves_after later j).ext, h4⟩

/-- C33: a method given as `types.Object` whose package keeps its name is left as it is: the text is that of
its own `String` method, whatever it is. -/
theorem C33_object_left (tbl : Nat → Bool) {h : Heap} {i : Imports} {o : TypesObject} {text : GoString}
    {m : MethodReference} (hi : Reachable i) (ho : symbolForGoObject o = .ok (.method m)) :
    ∃ a' j, qualifyArg h (.goObject o text) i = (.ok a', j) ∧ (¬ Stored (.goObject o text) j (.method m) →
      ∀ g, a'.shown tbl g = .str text) := by
  obtain ⟨a', j, h1, _, _, h6⟩ := qualifyArg_denotes (h := h) tbl hi.inv (.goMethod ho) trivial
  exact ⟨a', j, h1, fun hst g => by rw [h6 hst]; rfl⟩

/-- C33: a signature, which has no text of its own, is replaced by a pointer to one in which every
symbol has the qualifier that the imports give; the packages are registered. -/
theorem C33_signature {h : Heap} {i : Imports} {s : Signature} (hv : s.valid = true) :
    ∃ j, qualifyArg h (.sigPtr s) i = qualifyArg h (.sig s) i ∧
      qualifyArg h (.sig s) i = (.ok (.sigPtr (s.mapSymbols
        (Symbol.withPrefix j.pkgPath fun p => (prefixOf j p).dropLast))), j) ∧
      ∀ x ∈ s.symbols, x.package = ⟨[], []⟩ ∨ x.package.importPath = j.pkgPath ∨
        j.importsByPath.get x.package.importPath ≠ none := by
  obtain ⟨j, h1, h2, _⟩ := ensureAllTypesImported_eq (i := i) hv
  refine ⟨j, rfl, ?_, fun x hx => ?_⟩
  · rw [withPrefix_prefixOf, qualifyArg, IM.bind_ok h1]; rfl
  · rcases h2 x hx with h3 | h3
    · refine .inl ?_
      cases hp : x.package
      obtain ⟨h4, h5⟩ := h3
      simp_all
    · exact .inr h3

example : qualifyArg {} (.sig ⟨[⟨b! "a", .named ⟨⟨b! "x/q", b! "q"⟩, b! "T"⟩⟩], [], false⟩) (newImportsFor (b! "x/q"))
    = (.ok (.sigPtr ⟨[⟨b! "a", .named ⟨⟨b! "x/q", []⟩, b! "T"⟩⟩], [], false⟩), newImportsFor (b! "x/q")) := by rfl

/-- A heap with a file of package `q` (path `x/q`) at 0 and, in it, the interface type `T` with
method `M` at 1 and 2, and the method `N` of `T` at 3. -/
def exMethods : Heap where
  files p := if p = 0 then some { name := b! "q.go", packageName := b! "q", imports := newImportsFor (b! "x/q") } else none
  types p := if p = 1 then some { name := b! "T", underlying := .interface [] [], parent := some 0 } else none
  methods p := if p = 2 then some { name := b! "M", signature := ⟨[], [], false⟩, parent := some 1 } else none
  funcs p := if p = 3 then some { name := b! "N", receiver := some { name := [], type := b! "T" }, parent := some 0 } else none

/-- C33 fails: in a file of another package, an `*InterfaceMethod` renders as the bare name of the
method (code.go:204-207 only stores the method reference if the package name changed, and
`InterfaceMethod.String` is the name). -/
theorem C33_full_fails : ¬ C33_full := by
  intro hall
  obtain ⟨a', j, h1, h2⟩ := hall (fun _ => true) exMethods (newImportsFor (b! "x/p")) (.ifaceMethod 2)
    (.method ⟨⟨⟨b! "x/q", b! "q"⟩, b! "T"⟩, b! "M"⟩) ⟨b! "x/p", [], rfl⟩
    (.ifaceMethod (m := { name := b! "M", signature := ⟨[], [], false⟩, parent := some 1 })
      (t := { name := b! "T", underlying := .interface [] [], parent := some 0 })
      (file := { name := b! "q.go", packageName := b! "q", imports := newImportsFor (b! "x/q") })
      rfl rfl rfl (by decide) rfl rfl) trivial
  have e : qualifyArg exMethods (.ifaceMethod 2) (newImportsFor (b! "x/p"))
      = (.ok (.ifaceMethod 2), (newImportsFor (b! "x/p")).add (b! "x/q") (b! "q") false) := by rfl
  rw [e] at h1
  simp only [Prod.mk.injEq, Outcome.ok.injEq] at h1
  obtain ⟨rfl, rfl⟩ := h1
  obtain ⟨s, h3, h4⟩ := h2 []
  have h5 := h4 exMethods
  have e1 : (Arg.ifaceMethod 2).shown (fun _ => true) exMethods = .str (b! "M") := by rfl
  rw [e1] at h5
  simp only [Shown.str.injEq] at h5
  subst h5
  have e2 : (Reference.method ⟨⟨⟨b! "x/q", b! "q"⟩, b! "T"⟩, b! "M"⟩).text (fun _ => true)
    (((newImportsFor (b! "x/p")).add (b! "x/q") (b! "q") false).after []) = .ok (b! "q.T.M") := by rfl
  rw [e2] at h3
  simp at h3

/- The same method in its own package, and in a file where `q` needs an alias, is rendered right. -/
example : ((qualifyArg exMethods (.ifaceMethod 2) (newImportsFor (b! "x/q"))).1.bind fun a =>
    .ok (a.shown (fun _ => true) exMethods)) = .ok (.str (b! "T.M")) := by rfl
example : ((qualifyArg exMethods (.ifaceMethod 2) ((newImportsFor (b! "x/p")).after
    [.registerImport (b! "y/q") (b! "q")])).1.bind fun a =>
    .ok (a.shown (fun _ => true) exMethods)) = .ok (.str (b! "q1.T.M")) := by rfl
/- A method of a struct type given as `*FuncSpec` has the same problem. -/
example : ((qualifyArg exMethods (.func 3) (newImportsFor (b! "x/p"))).1.bind fun a =>
    .ok (a.shown (fun _ => true) exMethods)) = .ok (.str (b! "N")) := by rfl
example : ((qualifyArg exMethods (.typeSpec 1) (newImportsFor (b! "x/p"))).1.bind fun a =>
    .ok (a.shown (fun _ => true) exMethods)) = .ok (.str (b! "q.T")) := by rfl

end Gopoet
