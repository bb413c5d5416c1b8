import Verif.Props.Program
import Verif.Proof.ProgramImports
import Verif.Proof.ExecHeap
/-!
# Programs write their files (C78)

In `Verif.Props.Program` it is taken for granted that the files are written, and that they do not import the empty path. Both
follow from conditions on the calls (`Sensible`).
-/

namespace Gopoet
open Imports

theorem Arg.writable.refers {h : Heap} {a : Arg} (hw : a.writable h) : a.Refers h := by
  rcases hw with ⟨s, rfl⟩ | ⟨n, rfl⟩ | ⟨r, hd, -⟩
  · trivial
  · trivial
  · cases a <;> first | trivial | exact ⟨r, hd⟩

theorem CodeOf.usable {env : Env} {K : KnownTemplates env} {own : GoString} {h : Heap} {ks : List (CodeCall × Heap)} {l : CodeBlock} (hc : CodeOf h.args h.templs ks l)
    (hw : ∀ c ∈ ks.map Prod.fst, c.Clear K h own) : ∀ e ∈ l, e.Usable h := by
  induction hc with
  | nil => exact fun _ h => nomatch h
  | @line c g format args q cs l h1 h2 _ ih =>
    have hc := hw c (.head _)
    rintro e (_ | ⟨_, he⟩)
    · refine ⟨args, h2, fun a ha => ?_⟩
      cases c <;> simp only [CodeCall.line?, Option.some.injEq, Prod.mk.injEq, reduceCtorEq] at h1
      case print | println =>
        obtain ⟨-, rfl⟩ := h1
        cases List.mem_singleton.1 ha
        trivial
      case printf | printlnf =>
        obtain ⟨-, rfl⟩ := h1
        exact (hc.1 a ha).refers
    · exact ih (fun c hc => hw c (.tail _ hc)) e he
  | @templ n v g q cs l h2 _ ih =>
    rintro e (_ | ⟨_, he⟩)
    · exact ⟨_, h2⟩
    · exact ih (fun c hc => hw c (.tail _ hc)) e he
  | code => exact (hw _ (.head _)).elim

/-- The code in a file that a program has built can be used. -/
theorem FileSaid.usable {env : Env} {K : KnownTemplates env} {sc : FileScope} {cs : List BuildCall} {h : Heap} {p : Ptr} {pkg : GoString}
    {Ms : List DeclMeaning} {f : GoFile} (hs : FileSaid sc cs h p pkg Ms f) (hb : build cs {} = .ok h)
    (hc : CodeSays K h sc.own cs) : ∀ e ∈ f.elements, e.CodeUsable h := by
  intro e he
  cases e with
  | types q => trivial
  | func q =>
    intro fn hfn
    obtain ⟨g, post, k1, rfl⟩ := func_made _ rfl hb hfn
    obtain ⟨f1, ks, k2, k3, k4⟩ := func_code hb k1
    rw [hfn] at k2
    obtain rfl := Option.some.inj k2
    exact k3.usable (by rw [k4]; exact (hc.funcs _ _ g post k1).1)
  | values q =>
    intro d hd v hv c hcv b hi
    obtain ⟨M, -, hM⟩ := forall₂_mem_left hs.decls he
    rcases hM.inits q d rfl hd v hv c hcv b hi with ⟨v', k1⟩ | ⟨v', format, args, g, post, k1, rfl⟩
    · obtain ⟨c0, g, post, k2, rfl, k3⟩ := hc.blocks v' b k1
      obtain ⟨l, ks, k4, k5, k6⟩ := block_code hb k2
      exact ⟨l, k4, k5.usable (by rw [k6]; exact k3.1)⟩
    · obtain ⟨l, ks, k4, k5, k6⟩ := init_code hb k1
      exact ⟨l, k4, k5.usable (by rw [k6]; exact (hc.inits v' format args g post k1).1)⟩

/-- The file that a program says does not import the empty path. -/
theorem FileSaid.noEmpty {env : Env} {fuel : Nat} {sc : FileScope} {cs : List BuildCall} {h h' : Heap} {p : Ptr}
    {pkg text : GoString} {Ms : List DeclMeaning} {f f' : GoFile} (hs : FileSaid sc cs h p pkg Ms f) (hb : build cs {} = .ok h)
    (ho : InOrder cs) (hsn : Sensible cs) (hr : renderFile env fuel p h = (.ok text, h')) (hf' : h'.files p = some f') :
    [] ∉ f'.imports.importedPaths := by
  refine NoEmpty.render hs.file (build_noEmpty hb ho hsn ?_ ?_) hr hf'
  · exact (build_sound hb ho hsn).2.2.2 p f hs.file
  · rw [hs.imports]; rfl

/-- The templates in a file that a program has built are known, and show nothing else than what they should. -/
theorem FileSaid.clear {env : Env} {K : KnownTemplates env} {sc : FileScope} {cs : List BuildCall} {h : Heap} {p : Ptr} {pkg : GoString}
    {Ms : List DeclMeaning} {f : GoFile} (hs : FileSaid sc cs h p pkg Ms f) (hb : build cs {} = .ok h)
    (hc : CodeSays K h sc.own cs) {e : FileElem} (he : e ∈ f.elements) {q : Ptr} (ht : TemplateIn h e q) :
    ∃ n v, h.templs q = some ⟨n, v⟩ ∧ (CodeCall.renderCode n v).Clear K h sc.own := by
  cases ht with
  | func hfn hq =>
    obtain ⟨g, post, k1, rfl⟩ := func_made _ rfl hb hfn
    obtain ⟨f1, ks, k2, k3, k4⟩ := func_code hb k1
    rw [hfn] at k2
    obtain rfl := Option.some.inj k2
    exact k3.templ_mem (by rw [k4]; exact (hc.funcs _ _ g post k1).1) hq
  | init hd hv hcv hi hcb hq =>
    obtain ⟨M, -, hM⟩ := forall₂_mem_left hs.decls he
    rcases hM.inits _ _ rfl hd _ hv _ hcv _ hi with ⟨v', k1⟩ | ⟨v', format, args, g, post, k1, rfl⟩
    · obtain ⟨c0, g, post, k2, rfl, k3⟩ := hc.blocks v' _ k1
      obtain ⟨l, ks, k4, k5, k6⟩ := block_code hb k2
      rw [hcb] at k4
      obtain rfl := Option.some.inj k4
      exact k5.templ_mem (by rw [k6]; exact k3.1) hq
    · obtain ⟨l, ks, k4, k5, k6⟩ := init_code hb k1
      rw [hcb] at k4
      obtain rfl := Option.some.inj k4
      exact k5.templ_mem (by rw [k6]; exact (hc.inits v' format args g post k1).1) hq

/-- The templates in a file of a sensible program execute. -/
theorem FileSaid.executes {env : Env} {K : KnownTemplates env} {fuel : Nat} {sc : FileScope} {cs : List BuildCall} {h h' : Heap} {p : Ptr} {pkg : GoString}
    {Ms : List DeclMeaning} {f : GoFile} (hs : FileSaid sc cs h p pkg Ms f) (hb : build cs {} = .ok h) (ho : InOrder cs)
    (hsn : Sensible cs) (hc : CodeSays K h sc.own cs) (hq : qualifyFile fuel p h = (.ok (), h')) : ∀ e ∈ f.elements, e.Executes env h' := by
  obtain ⟨k1, -, -, k4⟩ := build_sound hb ho hsn
  intro e he q t ht h1 h2
  have ht0 := (qualifyFile_frame hs.file k1 hq).1.symm.templateIn ht
  obtain ⟨n, v, h3, h4⟩ := hs.clear hb hc he ht0
  obtain ⟨f0, f', h5, hf', -, -, h6⟩ := qualifyFile_settled hq
  rw [hs.file] at h5
  obtain rfl := Option.some.inj h5
  have hne : [] ∉ f'.imports.importedPaths :=
    NoEmpty.qualified hs.file (build_noEmpty hb ho hsn (k4 p f hs.file) (by rw [hs.imports]; rfl)) hq hf'
  have hown : f'.imports.pkgPath = sc.own := by
    rw [h6.ext.own, hs.imports]
    rfl
  obtain ⟨s, h7, -⟩ := clear_templ hs.file ⟨sc.own, [], hs.imports⟩ hq hf' hown hne he ht0 h3 h4
  rw [CodeElem.text] at h7
  simp only [deref, h1] at h7
  change (match env.exec h' t.templ t.data with | some s => pure s | none => Outcome.panic) = _ at h7
  rw [h2] at h7
  cases h7

/-- A line of code in which `Verif.Model.Fmt` describes what is written. -/
def DescribedLine (tbl : Nat → Bool) (h : Heap) (format : GoString) (q : Ptr) : Prop :=
  ∃ args, h.args q = some args ∧ (∀ a ∈ args, a.writable h) ∧
    ∀ i shown, List.Forall₂ (ArgWritten tbl h i) args shown → sprintf tbl format shown ≠ none

theorem CodeOf.described {env : Env} {K : KnownTemplates env} {own : GoString} {h : Heap} {ks : List (CodeCall × Heap)} {l : CodeBlock} (hc : CodeOf h.args h.templs ks l)
    (hw : ∀ c ∈ ks.map Prod.fst, c.Clear K h own) : ∀ format q, .line format q ∈ l → DescribedLine env.isPrint h format q := by
  induction hc with
  | nil => exact fun _ _ h => nomatch h
  | @line c g format args q cs l h1 h2 _ ih =>
    have hc := hw c (.head _)
    rintro format' q' (_ | ⟨_, he⟩)
    · refine ⟨args, h2, ?_⟩
      cases c <;> simp only [CodeCall.line?, Option.some.injEq, Prod.mk.injEq, reduceCtorEq] at h1 <;>
        obtain ⟨rfl, rfl⟩ := h1
      · refine ⟨by simp [Arg.writable], fun i shown k => ?_⟩
        obtain ⟨a, b, g1, g2, rfl⟩ := List.forall₂_cons_left_iff.1 k
        rw [argWritten_str g1, List.forall₂_nil_left_iff.1 g2]
        simp [sprintf, fmtVerb]
      · refine ⟨by simp [Arg.writable], fun i shown k => ?_⟩
        obtain ⟨a, b, g1, g2, rfl⟩ := List.forall₂_cons_left_iff.1 k
        rw [argWritten_str g1, List.forall₂_nil_left_iff.1 g2]
        simp [sprintf, fmtVerb]
      · exact hc
      · exact hc
    · exact ih (fun c hc => hw c (.tail _ hc)) _ _ he
  | templ _ _ ih =>
    rintro format' q' (_ | ⟨_, he⟩)
    exact ih (fun c hc => hw c (.tail _ hc)) _ _ he
  | code => exact (hw _ (.head _)).elim

/-- The code in a file that a program has built is described. -/
theorem FileSaid.described {env : Env} {K : KnownTemplates env} {sc : FileScope} {cs : List BuildCall} {h : Heap} {p : Ptr} {pkg : GoString}
    {Ms : List DeclMeaning} {f : GoFile} (hs : FileSaid sc cs h p pkg Ms f) (hb : build cs {} = .ok h)
    (hc : CodeSays K h sc.own cs) {e : FileElem} (he : e ∈ f.elements) {format : GoString} {q : Ptr}
    (hl : CodeIn h e (.line format q)) : DescribedLine env.isPrint h format q := by
  cases hl with
  | func hfn hq =>
    obtain ⟨g, post, k1, rfl⟩ := func_made _ rfl hb hfn
    obtain ⟨f1, ks, k2, k3, k4⟩ := func_code hb k1
    rw [hfn] at k2
    obtain rfl := Option.some.inj k2
    exact k3.described (by rw [k4]; exact (hc.funcs _ _ g post k1).1) _ _ hq
  | init hd hv hcv hi hcb hq =>
    obtain ⟨M, -, hM⟩ := forall₂_mem_left hs.decls he
    rcases hM.inits _ _ rfl hd _ hv _ hcv _ hi with ⟨v', k1⟩ | ⟨v', format, args, g, post, k1, rfl⟩
    · obtain ⟨c0, g, post, k2, rfl, k3⟩ := hc.blocks v' _ k1
      obtain ⟨l, ks, k4, k5, k6⟩ := block_code hb k2
      rw [hcb] at k4
      obtain rfl := Option.some.inj k4
      exact k5.described (by rw [k6]; exact k3.1) _ _ hq
    · obtain ⟨l, ks, k4, k5, k6⟩ := init_code hb k1
      rw [hcb] at k4
      obtain rfl := Option.some.inj k4
      exact k5.described (by rw [k6]; exact (hc.inits v' format args g post k1).1) _ _ hq

/-- Whatever `fmt` and text/template do in cases that are not modelled, it does not matter for a file of a sensible program. -/
theorem FileSaid.writesByString {env : Env} {K : KnownTemplates env} {sc : FileScope} {cs : List BuildCall} {h : Heap} {p : Ptr}
    {pkg : GoString} {Ms : List DeclMeaning} {f : GoFile} (hs : FileSaid sc cs h p pkg Ms f) (hb : build cs {} = .ok h)
    (ho : InOrder cs) (hsn : Sensible cs) (hc : CodeSays K h sc.own cs) (fuel : Nat) : env.WritesByString fuel h p := by
  intro f0 h' hf hq e he
  rw [hs.file] at hf
  obtain rfl := Option.some.inj hf
  have hsk := (qualifyFile_only fuel p h).1
  have hk := (qualifyFile_only fuel p h).2.2.2
  rw [hq] at hsk hk
  rw [qualifyFile_eq hs.file] at hq
  have hst := steps_fileElems fuel f.elements h f.imports
  rcases hx : QM.forEach (FileElem.qualify fuel) f.elements h f.imports with ⟨o, g, i'⟩
  rw [hx] at hst hq
  simp only [Prod.mk.injEq] at hq
  obtain ⟨rfl, rfl⟩ := hq
  obtain ⟨k1, k2, k3, k4⟩ := build_sound hb ho hsn
  have sound := (hst.frame k1).2
  have inv : Inv f.imports := by
    rw [hs.imports]
    exact inv_new _
  refine ⟨.inl sound.fields, ?_, ?_, ?_⟩
  · rintro q d v c a rfl hd hv hcv hca
    have hd0 : h.valueDecls q = some d := by
      have h1 := congrArg Heap.valueDecls hsk
      simp only [Heap.skeleton] at h1
      rw [← h1, hd]
    cases hct : c.type with
    | nil => rw [hct] at hca; cases hca
    | name t =>
      rw [hct] at hca
      cases hca
      obtain ⟨s, hs'⟩ := shown_valid env.isPrint ({ g with files := upd g.files p { f with imports := i' } } : Heap)
        (sound.values _ _ _ hcv hct)
      exact .inl (by rw [List.map_singleton, hs']; exact sprintf_space_v _ _)
    | spec r =>
      exfalso
      have h1 := congrFun (congrArg Heap.values hsk) v
      simp only [Heap.skeleton, show g.values v = some c from hcv, Option.map_some] at h1
      obtain ⟨c0, hc0, h2⟩ := Option.map_eq_some_iff.1 h1.symm
      have h3 : c0.type.skeleton = .spec r := by
        rw [show c0.type.skeleton = c.type.skeleton from congrArg ValueSpec.type h2, hct]
        rfl
      obtain ⟨M, -, hM⟩ := forall₂_mem_left hs.decls he
      cases hM.intends with
      | values h4 _ h5 =>
        rw [hd0] at h4
        obtain rfl := Option.some.inj h4
        obtain ⟨_, -, c1, t, h6, -, -, h7, -⟩ := forall₂_mem_left h5 hv
        rw [hc0] at h6
        obtain rfl := Option.some.inj h6
        generalize c0.type = r0 at h3 h7
        cases h7 <;> cases h3
  · intro format q l hcode hl
    have hcode0 : CodeIn h e (.line format q) := .of_skeleton (hsk ▸ hcode.skeleton)
    obtain ⟨args, h1, h2, h3⟩ := hs.described hb hc he hcode0
    have hline : HasLine h e q := by
      cases hcode0 with
      | init h4 h5 h6 h7 h8 h9 => exact .init h4 h5 h6 h7 h8 h9
      | func h4 h5 => exact .func h4 h5
    obtain ⟨l', shs, m1, _, m3, m4⟩ := elems_line_done (tbl := env.isPrint) h2 hline he rfl ⟨inv, fun _ _ h => h, .inl h1⟩ hx
    rw [show g.args q = some l from hl] at m1
    obtain rfl := Option.some.inj m1
    exact .inl (by rw [m3]; exact h3 _ _ (m4 _ (Ext.refl _)))
  · intro q t hcode ht h2 hsk2 _
    have hcode0 : CodeIn h e (.templ q) := .of_skeleton (hsk ▸ hcode.skeleton)
    have ht0 : TemplateIn h e q := by
      cases hcode0 with
      | init h4 h5 h6 h7 h8 h9 => exact .init h4 h5 h6 h7 h8 h9
      | func h4 h5 => exact .func h4 h5
    obtain ⟨n, v, h3, nodes, h4, -⟩ := hs.clear hb hc he ht0
    have hpl := ((build_noEmpty hb ho hsn (k4 p f hs.file) (by rw [hs.imports]; rfl)).steps hst).templs q t ht
    have h7 : t.templ = n := by
      have h5 := congrFun (congrArg Heap.templs hsk) q
      simp only [Heap.skeleton, show g.templs q = some t from ht, h3, Option.map_some] at h5
      exact congrArg Templ.templ (Option.some.inj h5)
    rw [h7, K.exec n nodes h4, K.exec n nodes h4]
    exact execute_noSpecs _ _ hpl.noSpecs

/-- **C78 (e).** A sensible program writes the file that it says. There is nothing more to ask: the file can be written, and
then is as in (b). -/
theorem C78_written {realName : GoString → GoString} {env : Env} {K : KnownTemplates env} {cs : List BuildCall} {h : Heap} {p : Ptr}
    {own pkg : GoString} {others : List Declared} {Ms : List DeclMeaning}
    (hb : build cs {} = .ok h)
    (hs : SaysFile (packageScope own (Declared.names (others ++ declaredBy Ms))) cs p pkg Ms)
    (hp : Proper realName own (Declared.names (others ++ declaredBy Ms) ++ predeclaredNames ++ [b! "init"]) cs)
    (hc : CodeSays K h own cs) (hsn : Sensible cs)
    (hid : isIdent pkg = true) (hoid : ∀ n ∈ Declared.names others, isIdent n = true)
    (hn : (others ++ declaredBy Ms).Nodup) (hi : .name (b! "init") ∉ declaredBy Ms) :
    ∃ fuel text h' src, renderFile env fuel p h = (.ok text, h') ∧ parseGoFile text = some src ∧ src.package = pkg ∧
      src.declared = declaredBy Ms ∧ src.LegalNames others realName ∧
      src.meaning own (Declared.names (others ++ declaredBy Ms)) realName = some Ms ∧
      ∃ f f', h.files p = some f ∧ h'.files p = some f' ∧
      (∀ s ∈ src.imports, s.UsedIn realName src ∨
        ∃ e ∈ f.elements, ∃ x pk, e.HasCode h x ∧ UsedCodeElem h f'.imports x pk ∧ pk.importPath = s.path) ∧
      ∀ e ∈ f.elements, ∀ q (l : List Arg) (n : Nat) a ref, HasLine h e q → h.args q = some l → l[n]? = some a → Denotes h a ref →
        ref.valid → ref.wellNamed = true → (∀ o text, a ≠ .goObject o text) →
        (packageScope own (Declared.names (others ++ declaredBy Ms))).Visible ref →
        ∃ l' a' s, h'.args q = some l' ∧ l'[n]? = some a' ∧ a'.shown env.isPrint h' = .str s ∧
          (src.scope own (Declared.names (others ++ declaredBy Ms)) realName).Means s ref := by
  obtain ⟨f, hf⟩ := hs.said hb hp.order
  obtain ⟨k1, k2, k3, -⟩ := build_sound hb hp.order hsn
  obtain ⟨fuel, text, h', hr⟩ := (C68_intended_executes (env := env) hf.file k1 k2 (hf.asked hp hb).intends
    fun _ _ => hf.executes hb hp.order hsn hc).2 (hf.usable hb hc)
  obtain ⟨f0, f', k4, hf', -⟩ := qualifyFile_settled (qualifyFile_of_renderFile hr)
  have hne := hf.noEmpty hb hp.order hsn hr hf'
  obtain ⟨src, f1, h1, h2, h3, h4, h5, h6, h7, h8⟩ := C78_program hb hs hp hc hid hoid hn hi hr hf' hne
  exact ⟨fuel, text, h', src, hr, h2, h3, h4, h5, h6, f1, f', h1, hf', h7, h8⟩

/-- A file of the package, with what it is to declare. -/
def planPart (h : Heap) (own : GoString) (x : FilePlan) : PackagePart :=
  ⟨x.1, (h.files x.1).getD { name := [], packageName := [], imports := newImportsFor own, elements := [] }, x.2⟩

theorem planPart_said {sc : FileScope} {cs : List BuildCall} {h : Heap} {own pkg : GoString} {x : FilePlan}
    (hb : build cs {} = .ok h) (ho : InOrder cs) (hs : SaysFile sc cs x.1 pkg x.2) :
    FileSaid sc cs h x.1 pkg x.2 (planPart h own x).file := by
  obtain ⟨f, hf⟩ := hs.said hb ho
  have : (planPart h own x).file = f := by simp only [planPart, hf.file, Option.getD_some]
  rw [this]
  exact hf

/-- **C78 (f).** A sensible program for files that share nothing writes the package that it says, if the formatter accepts source
files. -/
theorem C78_package_written {realName : GoString → GoString} {env : Env} {K : KnownTemplates env} {cs : List BuildCall} {h : Heap}
    {own pkg : GoString} {plans : List FilePlan}
    (hb : build cs {} = .ok h)
    (hs : ∀ x ∈ plans, SaysFile (packageScope own (Declared.names (plansDeclared plans))) cs x.1 pkg x.2)
    (hp : Proper realName own (Declared.names (plansDeclared plans) ++ predeclaredNames ++ [b! "init"]) cs)
    (hc : CodeSays K h own cs) (hsn : Sensible cs)
    (hid : isIdent pkg = true) (hn : (plansDeclared plans).Nodup) (hi : .name (b! "init") ∉ plansDeclared plans)
    (hpn : (plans.map (·.1)).Nodup) (hu : ∀ x ∈ plans, ∀ y ∈ plans, x.1 ≠ y.1 → Undisturbed h x.1 y.1)
    (hfmt : ∀ text src, parseGoFile text = some src → ∃ out, env.format text = some out) :
    ∃ fuel outs h' srcs, RenderedInTurn env fuel h (plans.map (·.1)) outs h' ∧
      List.Forall₂ (fun out src => ∃ text, env.format text = some out ∧ parseGoFile text = some src) outs srcs ∧
      LegalPackage srcs pkg realName ∧
      List.Forall₂ (fun x src => FilePlan.Becomes realName env fuel h own (packageNames srcs) x src) plans srcs := by
  have hfile : ∀ x ∈ plans, FileSaid (packageScope own (Declared.names (plansDeclared plans))) cs h x.1 pkg x.2
      (planPart h own x).file := fun x hx => planPart_said hb hp.order (hs x hx)
  have hne : ∀ x ∈ plans, ∀ fuel text h' f', renderFile env fuel x.1 h = (.ok text, h') → h'.files x.1 = some f' →
      [] ∉ f'.imports.importedPaths := fun x hx fuel text h' f' hr hf' => (hfile x hx).noEmpty hb hp.order hsn hr hf'
  have hdecl : ∀ x ∈ plans, (planPart h own x).file.declared h = declaredBy x.2 := fun x hx =>
    declared_eq ((hfile x hx).decls.imp fun _ _ h => h.intends)
  have hall : partsDeclared h (plans.map (planPart h own)) = plansDeclared plans := by
    rw [partsDeclared, List.flatMap_map, plansDeclared]
    exact List.flatMap_congr hdecl
  have hptr : (plans.map (planPart h own)).map (·.ptr) = plans.map (·.1) := by
    rw [List.map_map]; rfl
  have hgood : ∀ x ∈ plans, (planPart h own x).Good realName env h own pkg (plansDeclared plans) := by
    intro x hx
    have g := (hfile x hx).asked hp hb
    refine ⟨(hfile x hx).file, g.path, (hfile x hx).package, g.truthful, g.nameable, g.tidy, g.intends, ?_, ?_, g.avoid⟩
    · intro fuel text h' hr
      obtain ⟨f0, f1, -, k2, -⟩ := qualifyFile_settled (qualifyFile_of_renderFile hr)
      exact (hfile x hx).reads hb hc g.nameable hr k2 (hne x hx fuel text h' f1 hr k2)
    · exact hne x hx
  obtain ⟨k1, k2, -⟩ := build_sound hb hp.order hsn
  have key := C69_possible_each (realName := realName) (env := env) (h := h) (own := own) (name := pkg)
    (xs := plans.map (planPart h own)) hid (by
      intro x hx
      obtain ⟨y, hy, rfl⟩ := List.mem_map.1 hx
      rw [hall]
      exact hgood y hy) (hall ▸ hn) (hall ▸ hi) (hptr ▸ hpn) (by
      intro x hx y hy
      obtain ⟨a, ha, rfl⟩ := List.mem_map.1 hx
      obtain ⟨b, hb, rfl⟩ := List.mem_map.1 hy
      exact hu a ha b hb) (by
      intro fuel x hx
      obtain ⟨a, ha, rfl⟩ := List.mem_map.1 hx
      exact (hfile a ha).writesByString hb hp.order hsn hc fuel) (by
      intro x hx
      obtain ⟨a, ha, rfl⟩ := List.mem_map.1 hx
      exact (C68_intended_executes (env := env) (hfile a ha).file k1 k2 ((hfile a ha).asked hp hb).intends
        fun _ _ => (hfile a ha).executes hb hp.order hsn hc).2 ((hfile a ha).usable hb hc)) hfmt
  obtain ⟨fuel, outs, h', hr⟩ := key
  rw [hptr] at hr
  obtain ⟨srcs, h1, h2, h3⟩ := C78_package_program hb hs hp hc hid hn hi hpn hu (fun x hx => (hfile x hx).writesByString hb hp.order hsn hc fuel) hne hr
  exact ⟨fuel, outs, h', srcs, hr, h1, h2, h3⟩

end Gopoet
