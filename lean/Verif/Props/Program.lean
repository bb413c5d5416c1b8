import Verif.Proof.ProgramCode
/-!
# From a program to a Go package (C78)

C67 and C69 say what the text of a file means in terms of the objects that the file is made of. Here the
objects are those that a program has built, and everything is said in terms of the calls of the program: what
the file is to declare (`SaysFile`), and what is asked of the calls (`Proper`).
-/

namespace Gopoet
open Imports

theorem given_avoids {realName : GoString → GoString} {own : GoString} {avoid : List GoString} {cs : List BuildCall}
    (hp : Proper realName own avoid cs) {h : Heap} (hb : build cs {} = .ok h) {pk : Package} (hm : Mentioned h pk) :
    pk = ⟨[], []⟩ ∨ pk.importPath = own ∨ (pk.name = [] ∨ pk.name = realName pk.importPath) ∧
      isIdent (baseName pk) = true ∧ ∀ n, candidate (baseName pk) n ∉ avoid := by
  obtain ⟨c, h1, h2⟩ := build_mentioned hb hm
  exact hp.packages c h1 pk h2

theorem new_paths {own x : GoString} : x ∉ (newImportsFor own).importedPaths := by
  intro hy
  simp [Imports.importedPaths, Imports.importSpecs, importSpecsInOrder, newImportsFor, sortSpecs] at hy

theorem program_line {cs : List BuildCall} {h : Heap} (hb : build cs {} = .ok h) (ha : ∀ c ∈ cs, ∀ a ∈ c.args, a.NoMethod cs)
    {q : Ptr} {l : List Arg} (hl : h.args q = some l) {a : Arg} (hal : a ∈ l) {m : MethodReference}
    (hd : Denotes h a (.method m)) : a = .mref m ∨ a = .mrefPtr m := by
  rcases build_args hb hl hal with ⟨t, rfl⟩ | ⟨c, h1, h2⟩
  · cases hd
  · have h3 := ha c h1 a h2
    cases hd with
    | mref => exact .inl rfl
    | mrefPtr => exact .inr rfl
    | method k1 k2 =>
      obtain ⟨g, post, k3, k4⟩ := func_made _ rfl hb k1
      rw [k2] at k3
      exact absurd k4 (h3 _ _ g post k3)
    | ifaceMethod => exact h3.elim
    | goMethod k1 => exact absurd k1 (h3 _)

/-- What C67 asks of a file apart from its code, see `PackagePart.Good`. -/
structure FileAsked (realName : GoString → GoString) (h : Heap) (own : GoString) (all : List Declared) (Ms : List DeclMeaning)
    (f : GoFile) : Prop where
  path : f.imports.pkgPath = own
  truthful : TruthfulInput realName h f
  nameable : NameableInput h f
  tidy : Tidy h f
  intends : List.Forall₂ (Intends (packageScope own (Declared.names all)) h) f.elements Ms
  avoid : NamesAvoid h f (Declared.names all ++ predeclaredNames ++ [b! "init"])

/-- What is asked of the calls implies what is asked of the file. -/
theorem FileSaid.asked {realName : GoString → GoString} {own : GoString} {all : List Declared}
    {cs : List BuildCall} {h : Heap} {p : Ptr} {pkg : GoString} {Ms : List DeclMeaning} {f : GoFile}
    (hs : FileSaid (packageScope own (Declared.names all)) cs h p pkg Ms f)
    (hp : Proper realName own (Declared.names all ++ predeclaredNames ++ [b! "init"]) cs) (hb : build cs {} = .ok h) :
    FileAsked realName h own all Ms f := by
  have hown : f.imports.pkgPath = own := by rw [hs.imports]; rfl
  have himp : f.imports = (newImportsFor f.imports.pkgPath).after [] := by rw [hown]; exact hs.imports
  have hreach : ∀ e ∈ f.elements, ∀ r, ReachedSpec h e r → ∀ ts, h.types r = some ts → BodyLists h ts ts.underlying ∧
      (ts.name = [] ∨ ∃ p d, e = .types p ∧ h.typeDecls p = some d ∧ r ∈ d.types) := by
    intro e he
    obtain ⟨M, -, hM⟩ := forall₂_mem_left hs.decls he
    exact hM.reached
  refine ⟨hown, ⟨⟨[], himp, by simp⟩, ?_⟩, ⟨⟨[], himp, by simp⟩, ?_⟩, ⟨?_, ?_, ?_⟩,
    hs.decls.imp fun _ _ h => h.intends, ⟨?_, ?_⟩⟩
  · intro pk hm
    rcases given_avoids hp hb hm with rfl | h1 | ⟨h1 | h1, -⟩
    · exact .inl rfl
    · exact .inr (.inr (.inl (h1.trans hown.symm)))
    · exact .inl h1
    · exact .inr (.inl h1)
  · intro pk hm
    rcases given_avoids hp hb hm with h1 | h1 | ⟨-, h1, -⟩
    · exact .inr (.inl h1)
    · exact .inr (.inr (.inl (h1.trans hown.symm)))
    · exact .inl h1
  · intro e he r ts hr ht hn
    obtain ⟨q, d, rfl, h2, h3⟩ := (hreach e he r hr ts ht).2.resolve_left hn
    exact ⟨q, d, he, h2, h3⟩
  · intro e he r ts hr ht
    exact (hreach e he r hr ts ht).1
  · intro e he l hl a ha m hd
    cases hl with
    | init _ _ _ _ _ _ h1 => exact program_line hb hp.args h1 ha hd
    | code _ _ h1 => exact program_line hb hp.args h1 ha hd
  · intro x hx
    rw [hs.imports] at hx
    exact absurd hx new_paths
  · intro pk hm
    rcases given_avoids hp hb hm with h1 | h1 | ⟨-, -, h1⟩
    · exact .inr (.inl h1)
    · exact .inr (.inr (.inl (h1.trans hown.symm)))
    · exact .inl h1

/-- The packages in a written file have identifiers as names. -/
theorem names_ident {env : Env} {fuel : Nat} {p : Ptr} {h h' : Heap} {f f' : GoFile} {text : GoString} (hf : h.files p = some f)
    (hn : NameableInput h f) (hr : renderFile env fuel p h = (.ok text, h')) (hf' : h'.files p = some f')
    (hne : [] ∉ f'.imports.importedPaths) : ∀ path ∈ f'.imports.importedPaths, isIdent (f'.imports.qualifierOf path) = true := by
  obtain ⟨f0, f1, k1, k2, k3, -, k4⟩ := qualifyFile_settled (qualifyFile_of_renderFile hr)
  rw [hf] at k1
  rw [hf'] at k2
  obtain rfl := Option.some.inj k1
  obtain rfl := Option.some.inj k2
  have hs := k4.ident hn.state (NoCopyImported.get (.inr hne))
  intro path hp
  obtain ⟨d, hd⟩ := Option.ne_none_iff_exists'.1 ((mem_importPaths _ _).1 hp)
  have hown : path ≠ f'.imports.pkgPath := by rintro e; rw [e, hs.inv.ownAbsent] at hd; cases hd
  rw [Imports.qualifierOf, if_neg hown, hd]
  rcases hs.names path d hd with h1 | ⟨rfl, -⟩
  · exact h1
  · exact absurd hp hne

/-- The code in a file that a program has built is read as code when the file is written. -/
theorem FileSaid.reads {env : Env} {K : KnownTemplates env} {fuel : Nat} {sc : FileScope} {cs : List BuildCall} {h h' : Heap} {p : Ptr}
    {pkg text : GoString} {Ms : List DeclMeaning} {f f' : GoFile} (hs : FileSaid sc cs h p pkg Ms f)
    (hb : build cs {} = .ok h) (hc : CodeSays K h sc.own cs) (hn : NameableInput h f)
    (hr : renderFile env fuel p h = (.ok text, h')) (hf' : h'.files p = some f') (hne : [] ∉ f'.imports.importedPaths) :
    ∀ e ∈ f.elements, CodeReads env h' e := by
  have hid := names_ident hs.file hn hr hf' hne
  have hsk : h'.skeleton = h.skeleton := (C63_changes_only env fuel p h).1 ▸ by rw [hr]
  have hown : f'.imports.pkgPath = sc.own := by
    obtain ⟨f0, f1, k1, k2, k3, -, k4⟩ := qualifyFile_settled (qualifyFile_of_renderFile hr)
    rw [hs.file] at k1
    rw [hf'] at k2
    obtain rfl := Option.some.inj k1
    obtain rfl := Option.some.inj k2
    rw [k4.ext.own, hs.imports]
    rfl
  have hinv : Reachable f.imports := ⟨sc.own, [], hs.imports⟩
  intro e he
  cases e with
  | types q => exact .types
  | func q =>
    obtain ⟨M, -, hM⟩ := forall₂_mem_left hs.decls he
    have hfn : ∃ fn, h.funcs q = some fn := by
      cases hM.intends with
      | func h1 => exact ⟨_, h1⟩
    obtain ⟨fn, hfn⟩ := hfn
    obtain ⟨g, post, k1, rfl⟩ := func_made _ rfl hb hfn
    obtain ⟨f1, ks, k2, k3, k4⟩ := func_code hb k1
    rw [hfn] at k2
    obtain rfl := Option.some.inj k2
    obtain ⟨hw, hR⟩ := hc.funcs _ _ g post k1
    obtain ⟨texts, k5, k6⟩ := calls_text hs.file hinv hr hf' hown hne he k3 (fun fmt q hq => .func hfn hq) (fun q hq => .func hfn hq) (by rw [k4]; exact hw)
    rw [k4] at k6
    obtain ⟨body, k7⟩ := hR _ texts hown hid k6
    have h1 := congrFun (congrArg Heap.funcs hsk) g.next
    simp only [Heap.skeleton, hfn, Option.map_some] at h1
    obtain ⟨fn', k8, -⟩ := Option.map_eq_some_iff.1 h1
    refine .func k8 ?_ k7
    rw [funcCode_of_skeleton hsk k8 hfn]
    exact k5
  | values q =>
    obtain ⟨M, -, hM⟩ := forall₂_mem_left hs.decls he
    have hd : ∃ d, h.valueDecls q = some d := by
      cases hM.intends with
      | values h1 => exact ⟨_, h1⟩
    obtain ⟨d, hd⟩ := hd
    have hd' : h'.valueDecls q = some d := by
      have h1 := congrArg Heap.valueDecls hsk
      simp only [Heap.skeleton] at h1
      rw [h1, hd]
    refine .values hd' fun v hv c' hc' => ?_
    have h1 := congrFun (congrArg Heap.values hsk) v
    simp only [Heap.skeleton, hc', Option.map_some] at h1
    obtain ⟨c, hcv, -⟩ := Option.map_eq_some_iff.1 h1.symm
    rw [valueInit_of_skeleton hsk hc' hcv]
    cases hi : c.init with
    | none => exact ⟨none, .none⟩
    | some b =>
      have key : ∃ l ks calls, h.blocks b = some l ∧ CodeOf h.args h.templs ks l ∧ ks.map Prod.fst = calls ∧
          CallsRead K h sc.own (fun s => ∃ e, InitToks s e) calls := by
        rcases hM.inits q d rfl hd v hv c hcv b hi with ⟨v', k1⟩ | ⟨v', format, args, g, post, k1, rfl⟩
        · obtain ⟨c0, g, post, k2, rfl, k3⟩ := hc.blocks v' b k1
          obtain ⟨l, ks, k4, k5, k6⟩ := block_code hb k2
          exact ⟨l, ks, _, k4, k5, k6, k3⟩
        · obtain ⟨l, ks, k4, k5, k6⟩ := init_code hb k1
          exact ⟨l, ks, _, k4, k5, k6, hc.inits v' format args g post k1⟩
      obtain ⟨l, ks, calls, k1, k2, k3, hw, hR⟩ := key
      obtain ⟨texts, k5, k6⟩ := calls_text hs.file hinv hr hf' hown hne he k2 (fun fmt q hq => .init hd hv hcv hi k1 hq)
        (fun q hq => .init hd hv hcv hi k1 hq) (by rw [k3]; exact hw)
      rw [k3] at k6
      obtain ⟨e, k7⟩ := hR _ texts hown hid k6
      have hbl : h'.blocks b = some l := by
        have h1 := congrArg Heap.blocks hsk
        simp only [Heap.skeleton] at h1
        rw [h1, k1]
      exact ⟨some e, .some hbl k5 k7⟩

/-- **C78 (a).** A program that builds a file is a program for the Go file that it says: if its calls keep the rules, and the
file is written, then the text is a Go source file of the package, that declares what the calls said (with the
meaning that they gave it), keeps Go's rules about names next to the other files of the package, and has no import that it does
not use. References in its code refer to what was given to the calls. What is taken for granted of code is that it is read as
code (`CodeReads`), and that it names no package without path. -/
theorem C78_file {realName : GoString → GoString} {env : Env} {fuel : Nat} {cs : List BuildCall} {h h' : Heap} {p : Ptr}
    {own pkg text : GoString} {others : List Declared} {Ms : List DeclMeaning} {f' : GoFile}
    (hb : build cs {} = .ok h)
    (hs : SaysFile (packageScope own (Declared.names (others ++ declaredBy Ms))) cs p pkg Ms)
    (hp : Proper realName own (Declared.names (others ++ declaredBy Ms) ++ predeclaredNames ++ [b! "init"]) cs)
    (hid : isIdent pkg = true) (hoid : ∀ n ∈ Declared.names others, isIdent n = true)
    (hn : (others ++ declaredBy Ms).Nodup) (hi : .name (b! "init") ∉ declaredBy Ms)
    (hr : renderFile env fuel p h = (.ok text, h')) (hf' : h'.files p = some f') (hne : [] ∉ f'.imports.importedPaths)
    (hc : ∀ e ∈ f'.elements, CodeReads env h' e) :
    ∃ src f, h.files p = some f ∧ parseGoFile text = some src ∧ src.package = pkg ∧ src.declared = declaredBy Ms ∧
      src.LegalNames others realName ∧
      src.meaning own (Declared.names (others ++ declaredBy Ms)) realName = some Ms ∧
      (∀ s ∈ src.imports, s.UsedIn realName src ∨
        ∃ e ∈ f.elements, ∃ x pk, e.HasCode h x ∧ UsedCodeElem h f'.imports x pk ∧ pk.importPath = s.path) ∧
      ∀ e ∈ f.elements, ∀ q (l : List Arg) (n : Nat) a ref, HasLine h e q → h.args q = some l → l[n]? = some a → Denotes h a ref →
        ref.valid → ref.wellNamed = true → (∀ o text, a ≠ .goObject o text) →
        (packageScope own (Declared.names (others ++ declaredBy Ms))).Visible ref →
        ∃ l' a' s, h'.args q = some l' ∧ l'[n]? = some a' ∧ a'.shown env.isPrint h' = .str s ∧
          (src.scope own (Declared.names (others ++ declaredBy Ms)) realName).Means s ref := by
  obtain ⟨f, hf⟩ := hs.said hb hp.order
  have hd := declared_eq (hf.decls.imp fun _ _ h => h.intends)
  have g := hf.asked hp hb
  have hel : f'.elements = f.elements := by
    obtain ⟨f0, f1, k1, k2, k3, -⟩ := qualifyFile_settled (qualifyFile_of_renderFile hr)
    rw [hf.file] at k1
    rw [hf'] at k2
    obtain rfl := Option.some.inj k1
    obtain rfl := Option.some.inj k2
    rw [k3]
  rw [hel] at hc
  have hown := g.path
  obtain ⟨src, h1, h2, h3, h4, h5, h6, h7⟩ := file_names_all others (others ++ declaredBy Ms) (fun d => by rw [hd]) hf.file hf' hne
    g.truthful g.nameable (by rw [hf.package]; exact hid) g.tidy (by rw [hown]; exact g.intends) hr hc hoid (by rw [hd]; exact hn)
    (by rw [hd]; exact hi) g.avoid
  rw [hown] at h5 h7
  refine ⟨src, f, hf.file, h1, h2.trans hf.package, h3.trans hd, h4, h5, fun s hs => h6 s hs ?_, h7⟩
  rw [hf.imports]
  exact new_paths

/-- **C78 (b).** The same with nothing but the program: if its code is written as code (`CodeSays`), then so it is in
the file. -/
theorem C78_program {realName : GoString → GoString} {env : Env} {K : KnownTemplates env} {fuel : Nat} {cs : List BuildCall} {h h' : Heap} {p : Ptr}
    {own pkg text : GoString} {others : List Declared} {Ms : List DeclMeaning} {f' : GoFile}
    (hb : build cs {} = .ok h)
    (hs : SaysFile (packageScope own (Declared.names (others ++ declaredBy Ms))) cs p pkg Ms)
    (hp : Proper realName own (Declared.names (others ++ declaredBy Ms) ++ predeclaredNames ++ [b! "init"]) cs)
    (hc : CodeSays K h own cs)
    (hid : isIdent pkg = true) (hoid : ∀ n ∈ Declared.names others, isIdent n = true)
    (hn : (others ++ declaredBy Ms).Nodup) (hi : .name (b! "init") ∉ declaredBy Ms)
    (hr : renderFile env fuel p h = (.ok text, h')) (hf' : h'.files p = some f') (hne : [] ∉ f'.imports.importedPaths) :
    ∃ src f, h.files p = some f ∧ parseGoFile text = some src ∧ src.package = pkg ∧ src.declared = declaredBy Ms ∧
      src.LegalNames others realName ∧
      src.meaning own (Declared.names (others ++ declaredBy Ms)) realName = some Ms ∧
      (∀ s ∈ src.imports, s.UsedIn realName src ∨
        ∃ e ∈ f.elements, ∃ x pk, e.HasCode h x ∧ UsedCodeElem h f'.imports x pk ∧ pk.importPath = s.path) ∧
      ∀ e ∈ f.elements, ∀ q (l : List Arg) (n : Nat) a ref, HasLine h e q → h.args q = some l → l[n]? = some a → Denotes h a ref →
        ref.valid → ref.wellNamed = true → (∀ o text, a ≠ .goObject o text) →
        (packageScope own (Declared.names (others ++ declaredBy Ms))).Visible ref →
        ∃ l' a' s, h'.args q = some l' ∧ l'[n]? = some a' ∧ a'.shown env.isPrint h' = .str s ∧
          (src.scope own (Declared.names (others ++ declaredBy Ms)) realName).Means s ref := by
  refine C78_file hb hs hp hid hoid hn hi hr hf' hne ?_
  obtain ⟨f, hf⟩ := hs.said hb hp.order
  obtain ⟨f0, f1, k1, k2, k3, -⟩ := qualifyFile_settled (qualifyFile_of_renderFile hr)
  rw [hf.file] at k1
  rw [hf'] at k2
  obtain rfl := Option.some.inj k1
  obtain rfl := Option.some.inj k2
  rw [k3]
  exact hf.reads hb hc (hf.asked hp hb).nameable hr hf' hne

/-- What is to become of a file of a package: where it is, and what it is to declare. -/
abbrev FilePlan := Ptr × List DeclMeaning

/-- What the files are to declare. -/
def plansDeclared (plans : List FilePlan) : List Declared := plans.flatMap (declaredBy ·.2)

/-- The source file is what the plan says. -/
structure FilePlan.Becomes (realName : GoString → GoString) (env : Env) (fuel : Nat) (h : Heap) (own : GoString)
    (decls : List GoString) (x : FilePlan) (src : SourceFile) : Prop where
  declared : src.declared = declaredBy x.2
  meaning : src.meaning own decls realName = some x.2
  part : ∃ f, h.files x.1 = some f ∧ f.imports.importedPaths = [] ∧
    PackagePart.Becomes realName env fuel h own decls ⟨x.1, f, x.2⟩ src

theorem forall₂_strengthen {α β : Type} {R Q : α → β → Prop} : ∀ {l : List α} {m : List β}, List.Forall₂ R l m →
    (∀ a ∈ l, ∀ b, R a b → Q a b) → List.Forall₂ Q l m
  | _, _, .nil, _ => .nil
  | _, _, .cons h1 h2, h => .cons (h _ (by simp) _ h1) (forall₂_strengthen h2 fun a ha => h a (List.mem_cons_of_mem _ ha))

/-- **C78 (c).** A program that builds the files of a package is a program for the Go package that it says: if its calls keep
the rules, and the files, which share nothing, are written one after the other, then the texts are the source files of a Go
package in which nothing is declared twice, and each of them declares what the calls said. -/
theorem C78_package {realName : GoString → GoString} {env : Env} {fuel : Nat} {cs : List BuildCall} {h h' : Heap}
    {own pkg : GoString} {plans : List FilePlan} {outs : List GoString}
    (hb : build cs {} = .ok h)
    (hs : ∀ x ∈ plans, SaysFile (packageScope own (Declared.names (plansDeclared plans))) cs x.1 pkg x.2)
    (hp : Proper realName own (Declared.names (plansDeclared plans) ++ predeclaredNames ++ [b! "init"]) cs)
    (hid : isIdent pkg = true) (hn : (plansDeclared plans).Nodup) (hi : .name (b! "init") ∉ plansDeclared plans)
    (hpn : (plans.map (·.1)).Nodup) (hu : ∀ x ∈ plans, ∀ y ∈ plans, x.1 ≠ y.1 → Undisturbed h x.1 y.1)
    (henv : ∀ x ∈ plans, env.WritesByString fuel h x.1)
    (hc : ∀ x ∈ plans, ∀ fuel text h' f', renderFile env fuel x.1 h = (.ok text, h') → h'.files x.1 = some f' →
      [] ∉ f'.imports.importedPaths ∧ ∀ e ∈ f'.elements, CodeReads env h' e)
    (hr : RenderedInTurn env fuel h (plans.map (·.1)) outs h') :
    ∃ srcs, List.Forall₂ (fun out src => ∃ text, env.format text = some out ∧ parseGoFile text = some src) outs srcs ∧
      LegalPackage srcs pkg realName ∧
      List.Forall₂ (fun x src => FilePlan.Becomes realName env fuel h own (packageNames srcs) x src) plans srcs := by
  let part : FilePlan → PackagePart := fun x =>
    ⟨x.1, (h.files x.1).getD { name := [], packageName := [], imports := newImportsFor own, elements := [] }, x.2⟩
  have hfile : ∀ x ∈ plans, FileSaid (packageScope own (Declared.names (plansDeclared plans))) cs h x.1 pkg x.2 (part x).file := by
    intro x hx
    obtain ⟨f, hf⟩ := (hs x hx).said hb hp.order
    have : (part x).file = f := by simp only [part, hf.file, Option.getD_some]
    rw [this]
    exact hf
  have hdecl : ∀ x ∈ plans, (part x).file.declared h = declaredBy x.2 := fun x hx =>
    declared_eq ((hfile x hx).decls.imp fun _ _ h => h.intends)
  have hall : partsDeclared h (plans.map part) = plansDeclared plans := by
    rw [partsDeclared, List.flatMap_map, plansDeclared]
    exact List.flatMap_congr hdecl
  have hptr : (plans.map part).map (·.ptr) = plans.map (·.1) := by
    rw [List.map_map]; rfl
  have hgood : ∀ x ∈ plans, (part x).Good realName env h own pkg (plansDeclared plans) := by
    intro x hx
    have g := (hfile x hx).asked hp hb
    have code : ∀ fuel text h', renderFile env fuel x.1 h = (.ok text, h') → ∃ f', h'.files x.1 = some f' ∧
        f'.elements = (part x).file.elements := by
      intro fuel text h' hr
      obtain ⟨f0, f1, k1, k2, k3, -⟩ := qualifyFile_settled (qualifyFile_of_renderFile hr)
      rw [(hfile x hx).file] at k1
      obtain rfl := Option.some.inj k1
      exact ⟨f1, k2, by rw [k3]⟩
    refine ⟨(hfile x hx).file, g.path, (hfile x hx).package, g.truthful, g.nameable, g.tidy, g.intends, ?_, ?_, g.avoid⟩
    · intro fuel text h' hr
      obtain ⟨f', k1, k2⟩ := code fuel text h' hr
      rw [← k2]
      exact (hc x hx fuel text h' f' hr k1).2
    · intro fuel text h' f' hr hf'
      exact (hc x hx fuel text h' f' hr hf').1
  have key := C69_package (realName := realName) (env := env) (fuel := fuel) (h := h) (h' := h') (own := own) (name := pkg)
    (xs := plans.map part) (outs := outs) hid (by
      intro x hx
      obtain ⟨y, hy, rfl⟩ := List.mem_map.1 hx
      rw [hall]
      exact hgood y hy) (hall ▸ hn) (hall ▸ hi) (hptr ▸ hpn) (by
      intro x hx y hy
      obtain ⟨a, ha, rfl⟩ := List.mem_map.1 hx
      obtain ⟨b, hb, rfl⟩ := List.mem_map.1 hy
      exact hu a ha b hb) (by
      intro x hx
      obtain ⟨a, ha, rfl⟩ := List.mem_map.1 hx
      exact henv a ha) (hptr ▸ hr)
  obtain ⟨srcs, h1, h2, h3⟩ := key
  refine ⟨srcs, h1, h2, ?_⟩
  rw [List.forall₂_map_left_iff] at h3
  refine forall₂_strengthen h3 fun x hx src hb => ⟨hb.declared.trans (hdecl x hx), hb.meaning, (part x).file, (hfile x hx).file, ?_, hb⟩
  rw [(hfile x hx).imports]
  exact List.eq_nil_iff_forall_not_mem.2 fun _ => new_paths

/-- **C78 (d).** The same with nothing but the program. -/
theorem C78_package_program {realName : GoString → GoString} {env : Env} {K : KnownTemplates env} {fuel : Nat} {cs : List BuildCall} {h h' : Heap}
    {own pkg : GoString} {plans : List FilePlan} {outs : List GoString}
    (hb : build cs {} = .ok h)
    (hs : ∀ x ∈ plans, SaysFile (packageScope own (Declared.names (plansDeclared plans))) cs x.1 pkg x.2)
    (hp : Proper realName own (Declared.names (plansDeclared plans) ++ predeclaredNames ++ [b! "init"]) cs)
    (hc : CodeSays K h own cs)
    (hid : isIdent pkg = true) (hn : (plansDeclared plans).Nodup) (hi : .name (b! "init") ∉ plansDeclared plans)
    (hpn : (plans.map (·.1)).Nodup) (hu : ∀ x ∈ plans, ∀ y ∈ plans, x.1 ≠ y.1 → Undisturbed h x.1 y.1)
    (henv : ∀ x ∈ plans, env.WritesByString fuel h x.1)
    (hne : ∀ x ∈ plans, ∀ fuel text h' f', renderFile env fuel x.1 h = (.ok text, h') → h'.files x.1 = some f' →
      [] ∉ f'.imports.importedPaths)
    (hr : RenderedInTurn env fuel h (plans.map (·.1)) outs h') :
    ∃ srcs, List.Forall₂ (fun out src => ∃ text, env.format text = some out ∧ parseGoFile text = some src) outs srcs ∧
      LegalPackage srcs pkg realName ∧
      List.Forall₂ (fun x src => FilePlan.Becomes realName env fuel h own (packageNames srcs) x src) plans srcs := by
  refine C78_package hb hs hp hid hn hi hpn hu henv (fun x hx fuel text h' f' hr hf' => ⟨hne x hx fuel text h' f' hr hf', ?_⟩) hr
  obtain ⟨f, hf⟩ := (hs x hx).said hb hp.order
  obtain ⟨f0, f1, k1, k2, k3, -⟩ := qualifyFile_settled (qualifyFile_of_renderFile hr)
  rw [hf.file] at k1
  rw [hf'] at k2
  obtain rfl := Option.some.inj k1
  obtain rfl := Option.some.inj k2
  rw [k3]
  exact hf.reads hb hc (hf.asked hp hb).nameable hr hf' (hne x hx fuel text h' f' hr hf')

end Gopoet
