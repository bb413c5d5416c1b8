import Verif.Proof.UsedImports
import Verif.Props.FileMeaning
import Verif.Props.UnusedImports
/-! Property C62 for the text of files: the names that imports bind are used. -/

namespace Gopoet
open Imports

/-- C62 for the text: under the conditions of C56, and if the file is as C62 needs it, every import in the text that writing the
file added is used in the text: some type in it is written with the name that the import binds, or some line or template
of the code is given something of the imported package. What is missing from the full property: see
`C62_no_unused_partial`; and code may write what it is given where it is not a name, such as in a string or comment. -/
theorem C62_text_partial {realName : GoString → GoString} {env : Env} {fuel : Nat} {p : Ptr}
    {h h' : Heap} {f f' : GoFile} {text : GoString} {decls : List GoString} {Ms : List DeclMeaning}
    (hn : NoCopyImported h f'.imports) (hf : h.files p = some f) (hf' : h'.files p = some f')
    (ht : TruthfulInput realName h f) (hi : NameableInput h f) (hp : isIdent f.packageName = true)
    (hm : List.Forall₂ (Intends (packageScope f.imports.pkgPath decls) h) f.elements Ms) (hy : Tidy h f)
    (hr : renderFile env fuel p h = (.ok text, h')) (hc : ∀ e ∈ f.elements, CodeReads env h' e) :
    ∃ src, parseGoFile text = some src ∧ (src.Unshadowed decls realName → ∀ s ∈ src.imports, s.path ≠ [] →
      s.path ∉ f.imports.importedPaths → s.UsedIn realName src ∨
      ∃ e ∈ f.elements, ∃ x pk, e.HasCode h x ∧ UsedCodeElem h f'.imports x pk ∧ pk.importPath = s.path) := by
  obtain ⟨inv, src, h1, -, h3, h4⟩ := written_file_meaning hn hf hf' ht hi hp hm hr hc
  refine ⟨src, h1, fun hu s hs hx hb => ?_⟩
  rw [h3] at hs
  obtain ⟨s, hs', rfl⟩ := List.mem_map.1 hs
  have hmem : s.importPath ∈ f'.imports.importedPaths := List.mem_map.2 ⟨s, hs', rfl⟩
  obtain ⟨e, g1, pk, g2, g3⟩ := C62_no_unused_partial hf hy hr hf' s.importPath hmem hx hb
  have hown : s.importPath ≠ f.imports.pkgPath := ((C62_imports_iff hf hr hf' hx).1 hmem).resolve_left hb |>.1
  obtain ⟨M, g4, g5⟩ := forall₂_mem_left hm g1
  rcases g2.refers g5 (g3 ▸ hx) with ⟨n, g6⟩ | ⟨x, g6, g7⟩
  · left
    obtain ⟨d, k1, nm, k2, k3⟩ := SourceFile.meaning_refs (h4 hu) g4 g6
    obtain ⟨s', k4, rfl, k5⟩ := FileScope.resolve_declared k3 (by rw [g3]; exact hown)
    simp only [SourceFile.scope, h3, List.map_map] at k4 k2
    obtain ⟨s'', k6, rfl⟩ := List.mem_map.1 k4
    rw [Function.comp_apply, syn_spec] at k5 k2
    obtain rfl : s'' = s := List.inj_on_of_nodup_map (importSpecs_nodup inv) k6 hs' (k5.trans g3)
    exact ⟨d, k1, n, by rw [syn_spec]; exact k2⟩
  · exact .inr ⟨e, g1, x, pk, g6, g7, g3⟩

/-! ### The example of C56 -/

theorem exTwoQ_tidy : Tidy exTwoQ exTwoQ_file := by
  have htypes : ∀ {r ts}, exTwoQ.types r = some ts → r = 5 ∧ BodyLists exTwoQ ts ts.underlying := by
    intro r ts h1
    simp only [exTwoQ] at h1
    split at h1
    · rename_i hr
      cases h1
      exact ⟨hr, .struct (.cons ⟨_, rfl, rfl, rfl, .name⟩ .nil) rfl⟩
    · cases h1
  refine ⟨fun e he r ts _ h1 _ => ?_, fun e he r ts _ h1 => (htypes h1).2, fun e he l hl => ?_⟩
  · obtain rfl := (htypes h1).1
    exact ⟨2, _, by simp [exTwoQ_file], rfl, by simp⟩
  · cases hl with
    | init h1 h2 h3 h4 =>
      exfalso
      simp only [exTwoQ] at h3
      split at h3
      · cases h3; cases h4
      · split at h3
        · cases h3; cases h4
        · cases h3
    | code h1 => simp [exTwoQ] at h1

/-- Both imports of the example are used in its text, as is said by the theorem. -/
example : ∃ src, parseGoFile (b! "package p\n\nimport \"x/q\"\nimport q1 \"y/q\"\n\nvar (\nv q.T\nw *q1.T\n)\n\ntype S  struct {\nf map[error]S\n}\n") = some src ∧
    src.imports = [⟨none, b! "x/q"⟩, ⟨some (b! "q1"), b! "y/q"⟩] ∧
    (src.Unshadowed [b! "S", b! "v", b! "w"] exRealName → ∀ s ∈ src.imports, s.UsedIn exRealName src) := by
  obtain ⟨src, h1, h2⟩ := C62_text_partial (p := 0) (h := exTwoQ) (h' := (renderFile exEnv 3 0 exTwoQ).2) (f := exTwoQ_file)
    (env := exEnv) (fuel := 3) (.inl (by intro p t h; simp [exTwoQ] at h)) rfl rfl exTwoQ_truthful exTwoQ_nameable rfl
    exTwoQ_intends exTwoQ_tidy (by rw [← exTwoQ_text]) exTwoQ_reads
  refine ⟨src, h1, ?_, fun hu s hs => ?_⟩
  · cases h1; rfl
  · refine (h2 hu s hs ?_ ?_).resolve_right ?_
    · cases h1
      revert s
      decide
    · exact fun hm => absurd ((mem_importPaths _ _).1 hm) (by simp [exTwoQ_file, newImportsFor])
    · rintro ⟨e, -, x, pk, h3, h4, -⟩
      cases h3 with
      | init h1 h2 h3 h4 =>
        simp only [exTwoQ] at h3
        split at h3
        · cases h3; cases h4
        · split at h3
          · cases h3; cases h4
          · cases h3
      | func h1 => simp [exTwoQ] at h1

/-- The first is used in the type of `v`, and `q1` is not used in it. -/
example : ∃ src, parseGoFile (b! "package p\n\nimport \"x/q\"\nimport q1 \"y/q\"\n\nvar v q.T\n") = some src ∧
    (src.imports.map fun s => (s.path, src.decls.any fun d => d.typeRefs.any fun n => n.1 = some (s.spec.binds exRealName))) =
      [(b! "x/q", true), (b! "y/q", false)] :=
  ⟨_, rfl, by decide⟩

end Gopoet
