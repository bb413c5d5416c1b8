import Verif.Props.ProgramExample
/-! A program that gives a function a template as code, to which C78 applies. -/

namespace Gopoet
open Imports

/-- The file p.go of package x/p with `func F() { ... }`; the template calls functions of two packages that are both called `q`. -/
def exCaller : List BuildCall :=
  [.newFile (b! "p.go") (b! "x/p") (b! "p"), .newFunc none (b! "F"),
   .funcCode 1 (.renderCode 0 (.slice [.symbol ⟨⟨b! "x/q", b! "q"⟩, b! "A"⟩, .symbol ⟨⟨b! "y/q", b! "q"⟩, b! "B"⟩])), .addElement 0 (.func 1)]

def exCallerSays : List DeclMeaning := [.func none (b! "F") (.mk [] false [])]

def exCallerText : GoString := b! "package p

import \"x/q\"
import q1 \"y/q\"

func F() {
q.A()
q1.B()
}
"

example : ((build exCaller {}).bind fun h => (renderFile exTemplEnv 3 0 h).1) = .ok exCallerText := by decide +kernel

/-- The only template. -/
def exKnown : KnownTemplates exTemplEnv where
  own := exOwnTexts
  sc := exScalars
  nodes n := if n = 0 then some exCallEach else none
  exec n t h g d := by
    split at h
    · obtain rfl := Option.some.inj h
      rfl
    · cases h

def exCallerScope : FileScope := packageScope (b! "x/p") [b! "F"]

theorem exCaller_says : SaysFile exCallerScope exCaller 0 (b! "p") exCallerSays := by
  obtain ⟨g1, m1, k1⟩ := Made.at (cs := exCaller) 1 rfl (k := 1) (by decide +kernel)
  have d1 := SaysDecl.func (sc := exCallerScope) m1 (by decide) (by rw [k1]; exact ⟨by decide, by decide, by decide, by constructor <;> decide⟩)
    (by intro v hv; cases hv)
  rw [k1] at d1
  obtain ⟨g', h1, h2⟩ : ∃ g', (BuildCall.newFile (b! "p.go") (b! "x/p") (b! "p")).exec {} = .ok g' ∧
      ((steps (exCaller.drop 1) g').filterMap (added? 0)) = [.func 1] := ⟨_, rfl, by decide +kernel⟩
  have m0 : Made exCaller (.newFile (b! "p.go") exCallerScope.own (b! "p")) {} (exCaller.drop 1) := ⟨[], rfl, rfl⟩
  refine SaysFile.file m0 h1 (Ms := exCallerSays) ?_
  have h3 : List.Forall₂ (SaysDecl exCallerScope exCaller) [.func 1] exCallerSays := .cons d1 .nil
  rw [← h2] at h3
  exact h3

theorem exCaller_proper : Proper (fun _ => b! "q") (b! "x/p") ([b! "F"] ++ predeclaredNames ++ [b! "init"]) exCaller := by
  refine ⟨?_, ⟨?_, ?_⟩, ?_⟩
  · intro c hc pk hpk
    have h1 : ∀ pk ∈ exCaller.flatMap BuildCall.given, pk = ⟨b! "x/p", b! "p"⟩ ∨ pk = ⟨b! "x/q", b! "q"⟩ ∨ pk = ⟨b! "y/q", b! "q"⟩ ∨
        pk = ⟨[], []⟩ := by
      decide
    rcases h1 pk (List.mem_flatMap.2 ⟨c, hc, hpk⟩) with rfl | rfl | rfl | rfl
    · exact .inr (.inl rfl)
    · exact .inr (.inr ⟨.inr rfl, by decide, candidate_prefix (by decide)⟩)
    · exact .inr (.inr ⟨.inr rfl, by decide, candidate_prefix (by decide)⟩)
    · exact .inl rfl
  · intro pre q tag post he
    have h3 : ∀ x ∈ splits exCaller, ∀ q tag, x.2.1 ≠ .setTag q tag := by simp [exCaller, splits]
    exact absurd rfl (h3 (pre, .setTag q tag, post) (he ▸ mem_splits) q tag)
  · intro pre q c post he
    have h3 : ∀ x ∈ splits exCaller, ∀ q c, x.2.1 ≠ .methodSig q c := by simp [exCaller, splits]
    exact absurd rfl (h3 (pre, .methodSig q c, post) (he ▸ mem_splits) q c)
  · intro c hc a ha
    simp only [exCaller, List.mem_cons, List.not_mem_nil, or_false] at hc
    rcases hc with rfl | rfl | rfl | rfl <;> simp [BuildCall.args, CodeCall.args] at ha

/-- A call of a function without arguments. -/
theorem lex_call {i : Imports} (hi : ∀ path ∈ i.importedPaths, isIdent (i.qualifierOf path) = true) {s : Symbol}
    (hs : isIdent s.name = true) {rest : GoString} {tl : List Tok} (hl : Lex rest tl) :
    Lex (writtenSymbol i s ++ b! "()\n" ++ rest) (.ident s.name :: .lparen :: .rparen :: .nl :: tl) ∨
      ∃ q, Lex (writtenSymbol i s ++ b! "()\n" ++ rest) (.ident q :: .dot :: .ident s.name :: .lparen :: .rparen :: .nl :: tl) := by
  rw [List.append_assoc]
  exact lex_symbol hi hs (delim_cons (by decide)) (.punct' (t := .lparen) (by decide) (.punct' (t := .rparen) (by decide) (.newline hl)))

theorem exCaller_code {h : Heap} : CodeSays exKnown h (b! "x/p") exCaller := by
  refine ⟨?_, ?_, ?_⟩
  · intro r n g post hm
    obtain ⟨pre, h1, h2⟩ := hm
    have h3 : ∀ x ∈ splits exCaller, ∀ r n, x.2.1 = .newFunc r n → x.1 = exCaller.take 1 := by simp [exCaller, splits]
    obtain rfl : pre = _ := h3 _ (h1 ▸ mem_splits) r n rfl
    have h6 : g.next = 1 := by
      have : ((build (exCaller.take 1) {}).bind fun g => .ok g.next) = .ok 1 := by decide +kernel
      rw [h2] at this
      exact Outcome.ok.inj this
    rw [h6]
    show CallsRead _ h _ _ [.renderCode 0 (.slice [.symbol ⟨⟨b! "x/q", b! "q"⟩, b! "A"⟩, .symbol ⟨⟨b! "y/q", b! "q"⟩, b! "B"⟩])]
    have hmeans : ∀ i : Imports, templateMeans exTemplEnv.isPrint exOwnTexts exScalars h i exCallEach
        (.slice [.symbol ⟨⟨b! "x/q", b! "q"⟩, b! "A"⟩, .symbol ⟨⟨b! "y/q", b! "q"⟩, b! "B"⟩]) =
        some (writtenSymbol i ⟨⟨b! "x/q", b! "q"⟩, b! "A"⟩ ++ b! "()\n" ++ (writtenSymbol i ⟨⟨b! "y/q", b! "q"⟩, b! "B"⟩ ++ b! "()\n" ++ [])) := by
      intro i
      refine Eq.trans (b := some (writtenSymbol i ⟨⟨b! "x/q", b! "q"⟩, b! "A"⟩ ++ (b! "()\n" ++ []) ++ (writtenSymbol i ⟨⟨b! "y/q", b! "q"⟩, b! "B"⟩ ++ (b! "()\n" ++ []) ++ []) ++ [])) rfl ?_
      simp
    refine ⟨?_, ?_⟩
    · intro c hc
      simp only [List.mem_singleton] at hc
      subst hc
      refine ⟨exCallEach, rfl, rfl, rfl, rfl, .inl rfl, fun i => ⟨⟨trivial, trivial, trivial⟩, ?_, ?_⟩⟩
      · intro x hx
        have hsh : showsNodes exScalars exCallEach (.start (.slice [.symbol ⟨⟨b! "x/q", b! "q"⟩, b! "A"⟩, .symbol ⟨⟨b! "y/q", b! "q"⟩, b! "B"⟩])) =
          [(true, .symbol ⟨⟨b! "x/q", b! "q"⟩, b! "A"⟩), (true, .symbol ⟨⟨b! "y/q", b! "q"⟩, b! "B"⟩)] := by rfl
        change x ∈ showsNodes exScalars exCallEach _ at hx
        rw [hsh] at hx
        simp only [List.mem_cons, List.not_mem_nil, or_false] at hx
        rcases hx with rfl | rfl <;> exact ⟨rfl, fun h => absurd h (by decide)⟩
      · exact fun h => nomatch (hmeans i).symm.trans h
    · intro i texts _ hid hT
      obtain ⟨t, l, h1, h2, rfl⟩ := List.forall₂_cons_left_iff.1 hT
      rw [List.forall₂_nil_left_iff.1 h2]
      cases h1 with
      | line h1 => cases h1
      | templ hn hs =>
        obtain rfl := Option.some.inj hn
        obtain rfl := Option.some.inj ((hmeans i).symm.trans hs)
        have hb : ∀ {l : List Tok}, Balanced (fun _ => true) l → Balanced (fun _ => true) (.lparen :: .rparen :: .semi :: l) := fun hl =>
          .group (o := .lparen) (a := []) rfl .nil (.tok rfl rfl rfl hl)
        have h6 : ∃ ts, lex (writtenSymbol i ⟨⟨b! "x/q", b! "q"⟩, b! "A"⟩ ++ b! "()\n" ++ (writtenSymbol i ⟨⟨b! "y/q", b! "q"⟩, b! "B"⟩ ++ b! "()")) =
            some ts ∧ Balanced (fun _ => true) (insertSemis ts) := by
          have h5 : Lex (b! "()") [.lparen, .rparen] := Lex.of_lex (by decide)
          rcases lex_symbol hid (s := ⟨⟨b! "y/q", b! "q"⟩, b! "B"⟩) (by decide) (delim_cons (by decide)) h5 with h7 | ⟨q, h7⟩ <;>
            rcases lex_call hid (s := ⟨⟨b! "x/q", b! "q"⟩, b! "A"⟩) (by decide) h7 with h8 | ⟨q', h8⟩
          · exact ⟨_, h8.lex, .tok rfl rfl rfl (hb (.tok rfl rfl rfl (hb .nil)))⟩
          · exact ⟨_, h8.lex, .tok rfl rfl rfl (.tok rfl rfl rfl (.tok rfl rfl rfl (hb (.tok rfl rfl rfl (hb .nil)))))⟩
          · exact ⟨_, h8.lex, .tok rfl rfl rfl (hb (.tok rfl rfl rfl (.tok rfl rfl rfl (.tok rfl rfl rfl (hb .nil)))))⟩
          · exact ⟨_, h8.lex, .tok rfl rfl rfl (.tok rfl rfl rfl (.tok rfl rfl rfl (hb (.tok rfl rfl rfl (.tok rfl rfl rfl (.tok rfl rfl rfl
              (hb .nil)))))))⟩
        obtain ⟨ts, h7, h8⟩ := h6
        have h9 := BodyToks.lines h7 h8
        simp only [List.append_assoc] at h9
        exact ⟨_, by simpa using h9⟩
  · intro p b hm
    simp [exCaller] at hm
  · intro p format args g post hm
    obtain ⟨pre, h1, h2⟩ := hm
    have h3 : ∀ x ∈ splits exCaller, ∀ p format args, x.2.1 ≠ .initWith p format args := by simp [exCaller, splits]
    exact absurd rfl (h3 _ (h1 ▸ mem_splits) p format args)

theorem exCaller_declared : declaredBy exCallerSays = [.name (b! "F")] := by decide +kernel

/-- C78 for the example. -/
theorem exCaller_package : ∃ src, parseGoFile exCallerText = some src ∧ src.package = b! "p" ∧ src.LegalNames [] (fun _ => b! "q") ∧
    src.meaning (b! "x/p") [b! "F"] (fun _ => b! "q") = some exCallerSays := by
  have hnames : Declared.names ([] ++ declaredBy exCallerSays) = [b! "F"] := by
    rw [exCaller_declared]
    decide
  have hx : ((build exCaller {}).bind fun h => .ok ((renderFile exTemplEnv 3 0 h).1,
      ((renderFile exTemplEnv 3 0 h).2.files 0).map (·.imports.importsByPath.get []))) = .ok (.ok exCallerText, some none) := by decide +kernel
  obtain ⟨h, hb, hx⟩ := bind_eq_ok hx
  simp only [Outcome.ok.injEq, Prod.mk.injEq, Option.map_eq_some_iff] at hx
  obtain ⟨h1, f', h2, h3⟩ := hx
  have hne : [] ∉ f'.imports.importedPaths := fun hm => (mem_importPaths _ _).1 hm h3
  obtain ⟨src, f, -, h4, h5, -, h6, h7, -⟩ := C78_program (others := []) hb (by rw [hnames]; exact exCaller_says)
    (by rw [hnames]; exact exCaller_proper) exCaller_code (by decide) (by intro n hn; cases hn) (by rw [exCaller_declared]; decide)
    (by rw [exCaller_declared]; decide) (Prod.ext h1 rfl) h2 hne
  rw [hnames] at h7
  exact ⟨src, h4, h5, h6, h7⟩

theorem exCaller_sensible : Sensible exCaller := by
  refine ⟨?_, ?_, ?_, ?_, ?_, ?_, ?_, ?_⟩
  · intro c hc
    simp only [exCaller, List.mem_cons, List.not_mem_nil, or_false] at hc
    rcases hc with rfl | rfl | rfl | rfl <;> trivial
  · intro c hc a ha
    simp only [exCaller, List.mem_cons, List.not_mem_nil, or_false] at hc
    rcases hc with rfl | rfl | rfl | rfl <;> simp [BuildCall.args, CodeCall.args] at ha
  · intro r n g post hm
    obtain ⟨pre, h1, h2⟩ := hm
    have h3 : ∀ x ∈ splits exCaller, ∀ r n, x.2.1 = .newFunc r n → x.1 = exCaller.take 1 ∧ x.2.2 = exCaller.drop 2 := by
      simp [exCaller, splits]
    obtain ⟨h4, h5⟩ := h3 _ (h1 ▸ mem_splits) r n rfl
    obtain rfl : pre = _ := h4
    obtain rfl : post = _ := h5
    have h6 : ((build (exCaller.take 1) {}).bind fun g => .ok (sigBuilt (.func g.next) (exCaller.drop 2)).valid) = .ok true := by
      decide +kernel
    rw [h2] at h6
    exact Outcome.ok.inj h6
  · intro n g post hm
    obtain ⟨pre, h1, h2⟩ := hm
    have h3 : ∀ x ∈ splits exCaller, ∀ n, x.2.1 ≠ .newInterfaceMethod n := by simp [exCaller, splits]
    exact absurd rfl (h3 _ (h1 ▸ mem_splits) n)
  · intro c hc v hv
    simp only [exCaller, List.mem_cons, List.not_mem_nil, or_false] at hc
    rcases hc with rfl | rfl | rfl | rfl <;> try cases hv
    exact ⟨rfl, rfl, rfl, rfl, by decide⟩
  · intro n path name hm
    simp [exCaller] at hm
    rw [hm.2.1]
    decide
  · intro c hc pk hpk
    have h1 : ∀ pk ∈ exCaller.flatMap BuildCall.given, pk.importPath = [] → pk = ⟨[], []⟩ := by decide
    exact h1 pk (List.mem_flatMap.2 ⟨c, hc, hpk⟩)
  · intro c hc a ha pk hpk
    have h1 : ∀ pk ∈ (exCaller.flatMap BuildCall.args).flatMap Arg.handed, pk.importPath ≠ [] := by decide +kernel
    exact h1 pk (List.mem_flatMap.2 ⟨a, List.mem_flatMap.2 ⟨c, hc, ha⟩, hpk⟩)

/-- C78 (e) for the example: that the file can be written, although it contains a template, follows from the calls. -/
theorem exCaller_written : ∃ h fuel text h' src, build exCaller {} = .ok h ∧ renderFile exTemplEnv fuel 0 h = (.ok text, h') ∧
    parseGoFile text = some src ∧ src.meaning (b! "x/p") [b! "F"] (fun _ => b! "q") = some exCallerSays := by
  have hnames : Declared.names ([] ++ declaredBy exCallerSays) = [b! "F"] := by
    rw [exCaller_declared]
    decide
  have hx : ((build exCaller {}).bind fun _ => .ok ()) = .ok () := by decide +kernel
  obtain ⟨h, hb, -⟩ := bind_eq_ok hx
  obtain ⟨fuel, text, h', src, h1, h2, -, -, -, h4, -⟩ := C78_written (others := []) hb (by rw [hnames]; exact exCaller_says)
    (by rw [hnames]; exact exCaller_proper) exCaller_code exCaller_sensible (by decide) (by intro n hn; cases hn)
    (by rw [exCaller_declared]; decide) (by rw [exCaller_declared]; decide)
  rw [hnames] at h4
  exact ⟨h, fuel, text, h', src, hb, h1, h2, h4⟩

end Gopoet
