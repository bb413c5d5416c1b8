import Verif.Proof.LegibleFile
import Verif.Props.Renamed
import Verif.Proof.TextLemmas
/-! Property C74: the text of a file is Go source text. -/

namespace Gopoet
open Imports

theorem sourceText_candidate {s : GoString} (h : SourceText s) : ∀ n, SourceText (candidate s n)
  | 0 => h
  | _ + 1 => h.append (sourceText_decDigits _)

/-- The names of the imports in the end are source text if the names of the packages are. -/
theorem legible_imports {P : Package → Prop} {i j : Imports} (he : Evolves (fun pk => P pk ∨ pk.importPath = []) i j) (hi : Inv i)
    (hnames : i.Legible) (hpk : ∀ pk, P pk → SourceText pk.ownName) (h0 : SourceText (j.qualifierOf [])) : NamesLegible j := by
  intro p d hd
  rcases he.chosen hi hd with h1 | ⟨-, pk, n, h2 | h2, rfl, h3, -⟩
  · have := hnames p (mem_importedPaths_iff.2 ⟨d, h1⟩)
    rwa [qualifierOf_get hi h1] at this
  · rw [h3]
    exact sourceText_candidate (hpk pk h2) n
  · rw [h2] at hd
    rwa [qualifierOf_get (he.inv hi) hd] at h0

/-- C74: the text of a file is valid UTF-8 without NUL and byte order mark if the strings it is made of are. Struct tags
and import paths can be any bytes; package names can be as well if they are not used. (The package with the path "" can
only be imported for a copy of a spec in template data.) -/
theorem C74_source_text {env : Env} {fuel : Nat} {p : Ptr} {h h' : Heap} {f f' : GoFile} {text : GoString}
    (hi : Reachable f.imports) (hf : h.files p = some f) (hr : renderFile env fuel p h = (.ok text, h'))
    (hf' : h'.files p = some f') (hh : h.Legible) (hnames : f.imports.Legible)
    (hpk : ∀ e ∈ f.elements, ∀ pk, Visited h e pk → SourceText pk.ownName) (h0 : SourceText (f'.imports.qualifierOf []))
    (henv : env.Plain h') (hcode : ∀ e ∈ f.elements, ∀ x, CodeIn h' e x → x.Legible env h') : SourceText text := by
  have hq := qualifyFile_of_renderFile hr
  obtain ⟨he, -⟩ := qualifyFile_adds hq hf hf'
  have hJ : NamesLegible f'.imports := legible_imports he hi.inv hnames (fun pk ⟨e, h1, h2⟩ => hpk e h1 pk h2) h0
  have hh' := legible_qualifyFile hq hf hf' hh hJ
  have hel : f'.elements = f.elements := by
    have := hq
    rw [qualifyFile] at this
    simp only [hf] at this
    rcases hx : QM.forEach (FileElem.qualify fuel) f.elements h f.imports with ⟨o, h1, i1⟩
    rw [hx] at this
    simp only [Prod.mk.injEq] at this
    obtain ⟨-, rfl⟩ := this
    simp only [upd_same, Option.some.injEq] at hf'
    rw [← hf']
  rw [renderFile, hq] at hr
  simp only [deref, hf', Prod.mk.injEq] at hr
  refine legible_fileText henv hh' fuel hf' (fun s hs => ?_) (hel ▸ hcode) text hr.1
  obtain ⟨d, h1, h2⟩ := (mem_importSpecs (he.inv hi.inv) (s := s)).1 hs
  rw [h2]
  split
  · exact hJ _ d h1
  · exact .nil

/-! ### Conversely -/

theorem sourceText_cut_iff {a b : GoString} {c : UInt8} (h0 : 0 < c.toNat) (hc : c.toNat < 128) :
    SourceText (a ++ c :: b) ↔ SourceText a ∧ SourceText b :=
  ⟨fun h => h.cut hc, fun h => h.1.append (.cons h0 hc h.2)⟩

theorem sourceText_cons_iff {b : GoString} {c : UInt8} (h0 : 0 < c.toNat) (hc : c.toNat < 128) :
    SourceText (c :: b) ↔ SourceText b :=
  ⟨fun h => (h.cut (a := []) hc).2, fun h => .cons h0 hc h⟩

theorem sourceText_ascii_iff {a b : GoString} (ha : ∀ c ∈ a, 0 < c.toNat ∧ c.toNat < 128) : SourceText (a ++ b) ↔ SourceText b := by
  induction a with
  | nil => exact .rfl
  | cons c a ih =>
    rw [List.cons_append, sourceText_cons_iff (ha c (by simp)).1 (ha c (by simp)).2]
    exact ih fun x hx => ha x (by simp [hx])

theorem sourceText_comment_iff {c r : GoString} : SourceText (writeComment c ++ r) ↔ SourceText c ∧ SourceText r := by
  refine ⟨fun h => ?_, fun h => (sourceText_writeComment h.1).append h.2⟩
  rw [writeComment] at h
  split at h
  · have key : ∀ (ls : List GoString), SourceText (ls.flatMap (fun line => b! "// " ++ line ++ b! "\n") ++ r) →
        (∀ l ∈ ls, SourceText l) ∧ SourceText r := by
      intro ls
      induction ls with
      | nil => intro h; exact ⟨by simp, h⟩
      | cons l ls ih =>
        intro h
        rw [List.flatMap_cons, List.append_assoc, List.append_assoc, List.append_assoc,
          sourceText_ascii_iff (a := b! "// ") (by decide)] at h
        obtain ⟨h1, h2⟩ := h.cut (by decide)
        obtain ⟨h3, h4⟩ := ih h2
        refine ⟨fun x hx => ?_, h4⟩
        rcases List.mem_cons.1 hx with rfl | hx
        · exact h1
        · exact h3 x hx
    obtain ⟨h1, h2⟩ := key _ h
    rw [← joinWith_splitOn newline c]
    exact ⟨sourceText_joinWith (.ascii (by decide)) h1, h2⟩
  · rename_i hc
    rw [Decidable.not_not.1 hc]
    exact ⟨.nil, h⟩

theorem sourceText_packageClause_iff {tbl : Nat → Bool} (htbl : tbl 0xFEFF = false) {f : GoFile} {r : GoString} :
    SourceText (f.packageClause tbl ++ r) ↔ SourceText f.packageName ∧ SourceText r := by
  refine ⟨fun h => ?_, fun h => (legible_packageClause htbl h.1).append h.2⟩
  rw [GoFile.packageClause] at h
  split at h
  · simp only [List.append_assoc] at h
    rw [sourceText_ascii_iff (a := b! "package ") (by decide)] at h
    obtain ⟨h1, h2⟩ := h.cut (c := 32) (by decide)
    have h2 : SourceText (b! "// import " ++ (quote tbl f.canonicalImportPath ++ 10 :: r)) := h2
    rw [sourceText_ascii_iff (by decide)] at h2
    obtain ⟨h3, h4⟩ := h2.cut (c := 10) (by decide)
    exact ⟨h1, h4⟩
  · simp only [List.append_assoc] at h
    rw [sourceText_ascii_iff (a := b! "package ") (by decide)] at h
    exact h.cut (c := 10) (by decide)

theorem sourceText_statements_iff {tbl : Nat → Bool} (htbl : tbl 0xFEFF = false) {r : GoString} : ∀ {l : List ImportSpec},
    SourceText ((l.map (ImportSpec.statement tbl)).flatten ++ r) ↔ (∀ s ∈ l, SourceText s.packageAlias) ∧ SourceText r
  | [] => by simp
  | s :: l => by
    rw [List.map_cons, List.flatten_cons, List.append_assoc]
    have key : ∀ t, SourceText (s.statement tbl ++ t) ↔ SourceText s.packageAlias ∧ SourceText t := by
      intro t
      refine ⟨fun h => ?_, fun h => (legible_statement htbl h.1).append h.2⟩
      rw [ImportSpec.statement] at h
      split at h
      · simp only [List.append_assoc] at h
        rw [sourceText_ascii_iff (a := b! "import ") (by decide)] at h
        obtain ⟨h1, h2⟩ := h.cut (c := 32) (by decide)
        obtain ⟨h3, h4⟩ := h2.cut (c := 10) (by decide)
        exact ⟨h1, h4⟩
      · rename_i hn
        rw [Decidable.not_not.1 hn]
        rw [List.append_assoc, List.append_assoc, ← List.append_assoc] at h
        exact ⟨.nil, (h.cut (c := 10) (by decide)).2⟩
    rw [key, sourceText_statements_iff htbl]
    simp [and_assoc]

theorem sourceText_concat_iff {α} {f : α → Outcome GoString} : ∀ {l : List α} {t : GoString},
    concatText (fun e => (f e).bind fun s => .ok (b! "\n" ++ s)) l = .ok t →
    (SourceText t ↔ ∀ e ∈ l, ∀ s, f e = .ok s → SourceText s)
  | [], t, h => by
    cases h
    exact ⟨fun _ e he => by simp at he, fun _ => .nil⟩
  | a :: l, t, h => by
    obtain ⟨x, h1, h2⟩ := bind_eq_ok h
    obtain ⟨y, h3, h4⟩ := bind_eq_ok h2
    obtain ⟨z, h5, h6⟩ := bind_eq_ok h1
    cases h4
    cases h6
    have ih := sourceText_concat_iff h3
    have hy : y = [] ∨ ∃ w, y = 10 :: w := by
      cases l with
      | nil => cases h3; exact .inl rfl
      | cons b l =>
        obtain ⟨x', g1, g2⟩ := bind_eq_ok h3
        obtain ⟨y', g3, g4⟩ := bind_eq_ok g2
        obtain ⟨z', g5, g6⟩ := bind_eq_ok g1
        cases g4
        cases g6
        exact .inr ⟨_, rfl⟩
    have : SourceText (b! "\n" ++ z ++ y) ↔ SourceText z ∧ SourceText y := by
      rw [List.append_assoc, sourceText_ascii_iff (a := b! "\n") (by decide)]
      rcases hy with rfl | ⟨w, rfl⟩
      · rw [List.append_nil]
        exact ⟨fun h => ⟨h, .nil⟩, fun h => h.1⟩
      · rw [sourceText_cut_iff (by decide) (by decide), sourceText_cons_iff (by decide) (by decide)]
    rw [this, ih]
    simp only [List.mem_cons, forall_eq_or_imp, h5, Outcome.ok.injEq, forall_eq']

/-- C74, exactly: the text of a file is source text if and only if its comments, its package name, the names in its
import statements and the texts of its declarations are. -/
theorem C74_parts {env : Env} {fuel : Nat} {p : Ptr} {h h' : Heap} {f' : GoFile} {text : GoString}
    (hr : renderFile env fuel p h = (.ok text, h')) (hf' : h'.files p = some f') (hbom : env.isPrint 0xFEFF = false) :
    SourceText text ↔ SourceText f'.fileComment ∧ SourceText f'.packageComment ∧ SourceText f'.packageName ∧
      (∀ s ∈ f'.imports.importSpecs, SourceText s.packageAlias) ∧
      ∀ e ∈ f'.elements, ∀ t, e.text env h' fuel = .ok t → SourceText t := by
  rw [renderFile, qualifyFile_of_renderFile hr] at hr
  simp only [deref, hf', Prod.mk.injEq] at hr
  obtain ⟨body, h1, h2⟩ := bind_eq_ok (x := concatText _ f'.elements) hr.1
  cases h2
  simp only [List.append_assoc]
  rw [sourceText_comment_iff]
  have : ∀ t, SourceText ((if f'.fileComment ≠ [] then b! "\n" else []) ++ t) ↔ SourceText t := by
    intro t
    split
    · exact sourceText_ascii_iff (by decide)
    · exact .rfl
  rw [this, sourceText_comment_iff, sourceText_packageClause_iff hbom, sourceText_ascii_iff (a := b! "\n") (by decide),
    sourceText_statements_iff hbom, sourceText_concat_iff h1]

/-! Examples. -/

/-- An environment in which only U+FEFF is not printed. -/
def exPlainEnv : Env where
  isPrint n := n ≠ 0xFEFF
  fmtOther _ f _ := f
  exec _ _ _ := some []
  format s := some s

/-- A file with a comment that is not ASCII, a struct with a tag that is not UTF-8, and a function that refers to
another package. -/
def exLegible : Heap where
  files p := if p = 0 then some { name := b! "p.go", packageName := b! "p", imports := newImportsFor (b! "x/p"), fileComment := b! "é", elements := [.types 1, .func 2] }
    else none
  typeDecls p := if p = 1 then some { types := [3] } else none
  types p := if p = 3 then some { name := b! "T", underlying := .struct [⟨b! "F", .basic .int, [255, 0]⟩], structBody := [4], parent := some 0 } else none
  fields p := if p = 4 then some { name := b! "F", type := .name (.basic .int), tag := [255, 0], parent := some 3 } else none
  funcs p := if p = 2 then some { name := b! "G", parent := some 0, code := [.line (b! "%s(%q)\n") 5] } else none
  args p := if p = 5 then some [.symbol ⟨⟨b! "x/q", b! "q"⟩, b! "A"⟩, .str (b! "ö")] else none

example : (renderFile exPlainEnv 3 0 exLegible).1 = .ok (b! "// é\n\npackage p\n\nimport \"x/q\"\n\ntype T  struct {\nF int \"\\xff\\x00\"\n}\n\nfunc G() {\nq.A(\"ö\")\n}\n") := by decide +kernel

theorem exLegible_legible : exLegible.Legible := by
  constructor
  all_goals
    intro p x hx
    simp only [exLegible] at hx
    try split at hx
    all_goals try cases hx
  · exact ⟨⟨[233], by decide, by decide⟩, .nil, .ascii (by decide)⟩
  · refine ⟨.nil, .ascii (by decide), ?_⟩
    simp only [TypeName.Legible, LegibleFields, and_true]
    exact .ascii (by decide)
  · exact .nil
  · exact ⟨.nil, .ascii (by decide), by simp only [TypeRef.Legible, TypeName.Legible]⟩
  · refine ⟨.nil, .ascii (by decide), ?_, by simp⟩
    simp only [Signature.Legible, LegibleArgs, and_self]
  · intro a ha
    simp only [List.mem_cons, List.not_mem_nil, or_false] at ha
    rcases ha with rfl | rfl
    · exact ⟨.ascii (by decide), .ascii (by decide)⟩
    · exact ⟨[246], by decide, by decide⟩

theorem exPlainEnv_plain (h : Heap) : exPlainEnv.Plain h :=
  ⟨by decide, fun _ => ⟨show SourceText (b! "%v") from .ascii (by decide), show SourceText (b! " %v") from .ascii (by decide)⟩⟩

theorem exLegible_visited {e : FileElem} {pk : Package} (hv : Visited exLegible e pk) : pk = ⟨b! "x/q", b! "q"⟩ := by
  have types : ∀ {q pk}, ¬ VisitedBody exLegible q pk := by
    intro q pk hb
    induction hb with
    | @underlying p ts pk h1 h2 =>
      simp only [exLegible] at h1
      split at h1
      · cases h1
        simp [TypeName.symbols, symbolsFields] at h2
      · cases h1
    | @field p ts q f t pk h1 h2 h3 h4 h5 =>
      simp only [exLegible] at h3
      split at h3
      · cases h3
        cases h4
        simp [TypeName.symbols] at h5
      · cases h3
    | spec h1 h2 h3 h4 h5 ih => exact ih
    | @iface p ts e pk h1 h2 h3 =>
      simp only [exLegible] at h1
      split at h1
      · cases h1
        cases h2
      · cases h1
  cases hv with
  | valueType h1 => cases h1
  | valueSpec h1 => cases h1
  | valueInit h1 => cases h1
  | type h1 h2 h3 => exact absurd h3 types
  | @funcSig p f pk h1 h2 =>
    simp only [exLegible] at h1
    split at h1
    · cases h1
      simp [Signature.symbols, symbolsArgs] at h2
    · cases h1
  | @funcCode p f x pk h1 h2 h3 =>
    simp only [exLegible] at h1
    split at h1
    · cases h1
      simp only [List.mem_singleton] at h2
      subst h2
      cases h3 with
      | line h4 h5 h6 =>
        cases h4
        simp only [List.mem_cons, List.not_mem_nil, or_false] at h5
        rcases h5 with rfl | rfl
        · cases h6 with
          | ref h7 h8 =>
            cases h7
            simpa [Reference.packages] using h8
        · cases h6 with
          | ref h7 h8 => cases h7
    · cases h1

/-- The hypotheses of `C74_source_text` hold for this file. -/
example : ∃ text h', renderFile exPlainEnv 3 0 exLegible = (.ok text, h') ∧ SourceText text := by
  generalize hr : renderFile exPlainEnv 3 0 exLegible = r
  obtain ⟨o, h'⟩ := r
  have h1 : o = .ok (b! "// é\n\npackage p\n\nimport \"x/q\"\n\ntype T  struct {\nF int \"\\xff\\x00\"\n}\n\nfunc G() {\nq.A(\"ö\")\n}\n") := by
    rw [show o = (renderFile exPlainEnv 3 0 exLegible).1 by rw [hr]]
    decide +kernel
  subst h1
  have h2 : ∃ f', h'.files 0 = some f' ∧ f'.imports.qualifierOf [] = [] := by
    rw [show h' = (renderFile exPlainEnv 3 0 exLegible).2 by rw [hr]]
    exact ⟨_, rfl, rfl⟩
  have h3 : ∀ p, h'.funcs p = exLegible.funcs p := by
    rw [show h' = (renderFile exPlainEnv 3 0 exLegible).2 by rw [hr]]
    intro p
    show upd exLegible.funcs 2 _ p = _
    by_cases hp : p = 2
    · subst hp; rfl
    · rw [upd_ne _ _ hp]
  have h4 : h'.args 5 = some [.symbol ⟨⟨b! "x/q", b! "q"⟩, b! "A"⟩, .str (b! "ö")] := by
    rw [show h' = (renderFile exPlainEnv 3 0 exLegible).2 by rw [hr]]
    rfl
  obtain ⟨f', h5, h6⟩ := h2
  refine ⟨_, _, rfl, C74_source_text ⟨_, [], rfl⟩ rfl hr h5 exLegible_legible ?_ ?_ (by rw [h6]; exact .nil)
    (exPlainEnv_plain _) ?_⟩
  · intro x hx
    simp [Imports.importedPaths, Imports.importSpecs, newImportsFor, importSpecsInOrder, sortSpecs] at hx
  · intro e he pk hv
    rw [exLegible_visited hv]
    exact .ascii (by decide)
  · intro e he x hx
    simp only [List.mem_cons, List.not_mem_nil, or_false] at he
    rcases he with rfl | rfl
    · cases hx
    · cases hx with
      | func g1 g2 =>
        rw [h3] at g1
        cases g1
        simp only [List.mem_singleton] at g2
        subst g2
        refine ⟨.ascii (by decide), fun args ha hn => ?_⟩
        rw [h4] at ha
        cases ha
        have : sprintf exPlainEnv.isPrint (b! "%s(%q)\n") [.str (b! "q.A"), .str (b! "ö")] ≠ none := by decide +kernel
        exact absurd hn this

end Gopoet
