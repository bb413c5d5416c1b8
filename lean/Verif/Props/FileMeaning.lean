import Verif.Proof.FileMeaning
import Verif.Props.FileSyntax
/-! Property C56: the declarations in the text of a file mean what the file was meant to declare. -/

namespace Gopoet
open Imports

theorem written_file_meaning {realName : GoString → GoString} {env : Env} {fuel : Nat} {p : Ptr}
    {h h' : Heap} {f f' : GoFile} {text : GoString} {decls : List GoString} {Ms : List DeclMeaning}
    (hn : NoCopyImported h f'.imports) (hf : h.files p = some f) (hf' : h'.files p = some f')
    (ht : TruthfulInput realName h f) (hi : NameableInput h f) (hp : isIdent f.packageName = true)
    (hm : List.Forall₂ (Intends (packageScope f.imports.pkgPath decls) h) f.elements Ms)
    (hr : renderFile env fuel p h = (.ok text, h')) (hc : ∀ e ∈ f.elements, CodeReads env h' e) :
    Inv f'.imports ∧ ∃ src, parseGoFile text = some src ∧ src.package = f.packageName ∧
      src.imports = f'.imports.importSpecs.map ImportSpec.syn ∧
      (src.Unshadowed decls realName → src.meaning f.imports.pkgPath decls realName = some Ms) := by
  obtain ⟨g, g', h1, h2, h3, h4, h5⟩ := qualifyFile_settled (qualifyFile_of_renderFile hr)
  rw [hf] at h1
  rw [hf'] at h2
  obtain rfl := Option.some.inj h1
  obtain rfl := Option.some.inj h2
  obtain ⟨inv', htn⟩ := ht.after hn h5
  have r : Readable f'.imports realName := ⟨inv', htn, (h5.ident hi.state hn.get).names⟩
  have hown : f'.imports.pkgPath = f.imports.pkgPath := h5.ext.own
  have he : f'.elements = f.elements := by rw [h3]
  obtain ⟨ds, l1, l2⟩ := elems_declare (decls := decls) r h5 (by rw [hown]; exact hm) hc
    fun e hm pk hw => (h4 e (by rw [he]; exact hm)).written hw
  refine ⟨inv', _, C55_written_file hn hf hi hr hf' hp l1, rfl, rfl, fun hu => ?_⟩
  rw [SourceFile.meaning, ← hown, scope_syn]
  refine l2 fun s hs => ?_
  have := hu s.syn (List.mem_map.2 ⟨s, hs, rfl⟩)
  rwa [syn_spec] at this

/-- C56: the text that is written for a file, read as a Go source file and with all names in the types
resolved through its own import statements, declares what the elements of the file were meant to
declare before anything was qualified or written. It is enough that package names are truthful and
identifiers, that the code in the file has balanced brackets, and that no import takes the name of a
declaration of the package or of a predeclared type. -/
theorem C56_written_file_means_input {realName : GoString → GoString} {env : Env} {fuel : Nat} {p : Ptr}
    {h h' : Heap} {f f' : GoFile} {text : GoString} {decls : List GoString} {Ms : List DeclMeaning}
    (hn : NoCopyImported h f'.imports) (hf : h.files p = some f) (hf' : h'.files p = some f')
    (ht : TruthfulInput realName h f) (hi : NameableInput h f) (hp : isIdent f.packageName = true)
    (hm : List.Forall₂ (Intends (packageScope f.imports.pkgPath decls) h) f.elements Ms)
    (hr : renderFile env fuel p h = (.ok text, h')) (hc : ∀ e ∈ f.elements, CodeReads env h' e) :
    ∃ src, parseGoFile text = some src ∧ src.package = f.packageName ∧
      (src.Unshadowed decls realName → src.meaning f.imports.pkgPath decls realName = some Ms) := by
  obtain ⟨-, src, h1, h2, -, h3⟩ := written_file_meaning hn hf hf' ht hi hp hm hr hc
  exact ⟨src, h1, h2, h3⟩

/-! ### An example: two packages called `q`, and the package's own type -/

/-- A file with two variables and a struct. -/
def exTwoQ : Heap where
  files p := if p = 0 then some { name := b! "p.go", packageName := b! "p", imports := newImportsFor (b! "x/p")
                                  elements := [.values 1, .types 2] } else none
  valueDecls p := if p = 1 then some { kind := .var, specs := [3, 4] } else none
  values p := if p = 3 then some { kind := .var, names := [b! "v"], parent := some 0
                                   type := .name (.named ⟨⟨b! "x/q", b! "q"⟩, b! "T"⟩) }
    else if p = 4 then some { kind := .var, names := [b! "w"], parent := some 0
                              type := .name (.ptr (.named ⟨⟨b! "y/q", b! "q"⟩, b! "T"⟩)) } else none
  typeDecls p := if p = 2 then some { types := [5] } else none
  types p := if p = 5 then some { name := b! "S", structBody := [6], parent := some 0,
                                   underlying := .struct [⟨b! "f", .map (.named ⟨⟨b! "x/p", b! "p"⟩, b! "S"⟩)
                                     (.named ⟨⟨[], []⟩, b! "error"⟩), []⟩] }
    else none
  fields p := if p = 6 then some { name := b! "f", type := .name (.map (.named ⟨⟨b! "x/p", b! "p"⟩, b! "S"⟩)
    (.named ⟨⟨[], []⟩, b! "error"⟩)) } else none

/-- What it is meant to declare. -/
def exTwoQ_meaning : List DeclMeaning :=
  [.values false [([b! "v"], some (.name (.declared (b! "x/q") (b! "T")))),
      ([b! "w"], some (.ptr (.name (.declared (b! "y/q") (b! "T")))))],
   .types [(b! "S", false, .struct [.mk (some (b! "f"))
      (.map (.name (.builtin (b! "error"))) (.name (.declared (b! "x/p") (b! "S")))) none])]]

theorem exTwoQ_text : (renderFile exEnv 3 0 exTwoQ).1 = .ok (b! "package p\n\nimport \"x/q\"\nimport q1 \"y/q\"\n\nvar (\nv q.T\nw *q1.T\n)\n\ntype S  struct {\nf map[error]S\n}\n") := by
  decide +kernel

theorem exTwoQ_mentioned {pk : Package} (hm : Mentioned exTwoQ pk) :
    pk = ⟨b! "x/q", b! "q"⟩ ∨ pk = ⟨b! "y/q", b! "q"⟩ ∨ pk = ⟨b! "x/p", b! "p"⟩ ∨ pk = ⟨[], []⟩ := by
  cases hm with
  | file h =>
    simp only [exTwoQ] at h
    split at h
    · cases h; decide
    · simp at h
  | value h h2 h3 =>
    simp only [exTwoQ] at h
    split at h
    · cases h; cases h2
      simp only [TypeName.symbols, List.map_cons, List.map_nil, List.mem_singleton] at h3
      exact .inl h3
    · split at h
      · cases h; cases h2
        simp only [TypeName.symbols, List.map_cons, List.map_nil, List.mem_singleton] at h3
        exact .inr (.inl h3)
      · simp at h
  | type h h2 =>
    simp only [exTwoQ] at h
    split at h
    · cases h
      simp only [TypeName.symbols, symbolsFields, List.map_cons, List.map_nil, List.singleton_append, List.append_nil,
        List.mem_cons, List.not_mem_nil, or_false] at h2
      rcases h2 with h2 | h2
      · exact .inr (.inr (.inr h2))
      · exact .inr (.inr (.inl h2))
    · simp at h
  | field h h2 h3 =>
    simp only [exTwoQ] at h
    split at h
    · cases h; cases h2
      simp only [TypeName.symbols, List.map_cons, List.map_nil, List.singleton_append, List.mem_cons,
        List.not_mem_nil, or_false] at h3
      rcases h3 with h3 | h3
      · exact .inr (.inr (.inr h3))
      · exact .inr (.inr (.inl h3))
    · simp at h
  | embed h => simp [exTwoQ] at h
  | method h => simp [exTwoQ] at h
  | func h => simp [exTwoQ] at h
  | arg h => simp [exTwoQ] at h
  | templ h => simp [exTwoQ] at h

/-- The file of the example. -/
def exTwoQ_file : GoFile :=
  { name := b! "p.go", packageName := b! "p", imports := newImportsFor (b! "x/p"), elements := [.values 1, .types 2] }

theorem exTwoQ_truthful : TruthfulInput exRealName exTwoQ exTwoQ_file := by
  refine ⟨⟨[], rfl, by simp⟩, fun pk hm => ?_⟩
  rcases exTwoQ_mentioned hm with rfl | rfl | rfl | rfl <;> decide

theorem exTwoQ_nameable : NameableInput exTwoQ exTwoQ_file := by
  refine ⟨⟨[], rfl, by simp⟩, fun pk hm => ?_⟩
  rcases exTwoQ_mentioned hm with rfl | rfl | rfl | rfl <;> decide

theorem exTwoQ_intends : List.Forall₂ (Intends (packageScope (b! "x/p") [b! "S", b! "v", b! "w"]) exTwoQ) exTwoQ_file.elements
    exTwoQ_meaning := by
  refine .cons (.values (d := { kind := .var, specs := [3, 4] }) rfl (.inl (by decide))
      (.cons ⟨_, _, rfl, by decide, by decide, .name (t := .named ⟨⟨b! "x/q", b! "q"⟩, b! "T"⟩) ⟨rfl, rfl, rfl⟩ ?_,
          .inl rfl, rfl⟩
        (.cons ⟨_, _, rfl, by decide, by decide,
          .name (t := .ptr (.named ⟨⟨b! "y/q", b! "q"⟩, b! "T"⟩)) ⟨rfl, rfl, rfl⟩ ?_, .inl rfl, rfl⟩ .nil)))
      (.cons (.types (d := { types := [5] }) rfl (.inl (by decide))
        (.cons ⟨_, _, rfl, rfl, .struct rfl rfl (.cons rfl (.line
          (t := .map (.named ⟨⟨b! "x/p", b! "p"⟩, b! "S"⟩) (.named ⟨⟨[], []⟩, b! "error"⟩)) rfl rfl
          ⟨rfl, rfl, rfl⟩ (.inr rfl) ?_) .nil), rfl⟩ .nil)) .nil)
  all_goals constructor <;> decide

theorem exTwoQ_reads : ∀ e ∈ exTwoQ_file.elements, CodeReads exEnv (renderFile exEnv 3 0 exTwoQ).2 e := by
  intro e he
  simp only [exTwoQ_file, List.mem_cons, List.not_mem_nil, or_false] at he
  rcases he with rfl | rfl
  · refine .values (d := { kind := .var, specs := [3, 4] }) rfl fun q hq c hc => ?_
    simp only [List.mem_cons, List.not_mem_nil, or_false] at hq
    rcases hq with rfl | rfl
    · obtain rfl : { kind := .var, names := [b! "v"], parent := some 0
                     type := .name (.named ⟨⟨b! "x/q", b! "q"⟩, b! "T"⟩) } = c := Option.some.inj hc
      exact ⟨_, .none⟩
    · obtain rfl : { kind := .var, names := [b! "w"], parent := some 0
                     type := .name (.ptr (.named ⟨⟨b! "y/q", b! "q1"⟩, b! "T"⟩)) } = c := Option.some.inj hc
      exact ⟨_, .none⟩
  · exact .types

/-- The conditions of C56 hold for the example, and so do its conclusions, including that no name is
taken by an import. -/
example : ∃ src, parseGoFile (b! "package p\n\nimport \"x/q\"\nimport q1 \"y/q\"\n\nvar (\nv q.T\nw *q1.T\n)\n\ntype S  struct {\nf map[error]S\n}\n") = some src ∧
    src.package = b! "p" ∧ (src.Unshadowed [b! "S", b! "v", b! "w"] exRealName →
      src.meaning (b! "x/p") [b! "S", b! "v", b! "w"] exRealName = some exTwoQ_meaning) :=
  C56_written_file_means_input (p := 0) (h' := (renderFile exEnv 3 0 exTwoQ).2) (f := exTwoQ_file) (env := exEnv)
    (fuel := 3) (.inl (by intro p t h; simp [exTwoQ] at h)) rfl rfl exTwoQ_truthful exTwoQ_nameable rfl exTwoQ_intends
    (by rw [← exTwoQ_text]) exTwoQ_reads

example : ∀ src, parseGoFile (b! "package p\n\nimport \"x/q\"\nimport q1 \"y/q\"\n\nvar (\nv q.T\nw *q1.T\n)\n\ntype S  struct {\nf map[error]S\n}\n") = some src →
    src.Unshadowed [b! "S", b! "v", b! "w"] exRealName := by
  intro src hs
  obtain rfl := Option.some.inj hs
  unfold SourceFile.Unshadowed
  decide

end Gopoet
