import Verif.Props.ProgramExample
import Verif.Proof.ProgramApart
/-!
# Programs for several files (C78)

`C78_package_written` asks of the objects that the program builds that files have nothing in common. It is enough that no call
brings objects of different files together (`FilesApart`).
-/

namespace Gopoet
open Imports

/-- **C78 (g).** A sensible program that keeps the files of a package apart writes the package that it says, if the formatter
accepts source files. Nothing is asked but of the calls, and nothing of what `fmt` and text/template do where they are not
modelled. -/
theorem C78_apart {realName : GoString → GoString} {env : Env} {K : KnownTemplates env} {cs : List BuildCall} {h : Heap}
    {own pkg : GoString} {plans : List FilePlan} {owner : Ptr → Ptr}
    (hb : build cs {} = .ok h)
    (hs : ∀ x ∈ plans, SaysFile (packageScope own (Declared.names (plansDeclared plans))) cs x.1 pkg x.2)
    (hp : Proper realName own (Declared.names (plansDeclared plans) ++ predeclaredNames ++ [b! "init"]) cs)
    (hc : CodeSays K h own cs) (hsn : Sensible cs)
    (hid : isIdent pkg = true) (hn : (plansDeclared plans).Nodup) (hi : .name (b! "init") ∉ plansDeclared plans)
    (hpn : (plans.map (·.1)).Nodup) (ha : FilesApart owner cs) (ho : ∀ x ∈ plans, owner x.1 = x.1)
    (hfmt : ∀ text src, parseGoFile text = some src → ∃ out, env.format text = some out) :
    ∃ fuel outs h' srcs, RenderedInTurn env fuel h (plans.map (·.1)) outs h' ∧
      List.Forall₂ (fun out src => ∃ text, env.format text = some out ∧ parseGoFile text = some src) outs srcs ∧
      LegalPackage srcs pkg realName ∧
      List.Forall₂ (fun x src => FilePlan.Becomes realName env fuel h own (packageNames srcs) x src) plans srcs :=
  C78_package_written hb hs hp hc hsn hid hn hi hpn
    (fun x hx y hy hxy => ha.undisturbed hb (by rw [ho x hx, ho y hy]; exact hxy)) hfmt

/-! ### An example -/

/-- Two files of package x/shop. The function in the second one uses the type in the first one. -/
def exDuo : List BuildCall :=
  [.newFile (b! "item.go") (b! "x/shop") (b! "shop"), .newField (b! "Price") (.name exBigInt),
   .newStructTypeSpec (b! "Item") [1], .addType 0 2,
   .newFile (b! "new.go") (b! "x/shop") (b! "shop"), .newFunc none (b! "New"),
   .funcSig 5 (.addResult [] (.ptr (.named (newSymbol (b! "x/shop") (b! "Item"))))),
   .newBlock (some (.printlnf (b! "return new(%s)") [.typeSpec 2])), .funcCode 5 (.addCode 6), .addElement 4 (.func 5)]

/-- What they declare. -/
def exDuoPlans : List FilePlan :=
  [(0, [.types [(b! "Item", false, .struct [.mk (some (b! "Price")) exBigIntMeaning none])]]),
   (4, [.func none (b! "New") (.mk [] false [.mk none (.ptr (.name (.declared (b! "x/shop") (b! "Item"))))])])]

/-- The objects of the first file are those before the second file. -/
def exDuoOwner (p : Ptr) : Ptr := if p < 4 then 0 else 4

example : ((build exDuo {}).bind fun h => (renderFile exEnv 3 0 h).1) =
    .ok (b! "package shop\n\nimport \"math/big\"\n\ntype Item  struct {\nPrice *big.Int\n}\n") := by decide +kernel

theorem exDuo_declared : plansDeclared exDuoPlans = [.name (b! "Item"), .name (b! "New")] := by decide +kernel

/-- The names in the package. -/
def exDuoScope : FileScope := packageScope (b! "x/shop") [b! "Item", b! "New"]

theorem exDuo_says : ∀ x ∈ exDuoPlans, SaysFile exDuoScope exDuo x.1 (b! "shop") x.2 := by
  obtain ⟨g1, m1, k1⟩ := Made.at (cs := exDuo) 1 rfl (k := 1) (by decide +kernel)
  obtain ⟨g2, m2, k2⟩ := Made.at (cs := exDuo) 2 rfl (k := 2) (by decide +kernel)
  obtain ⟨g3, m3, k3⟩ := Made.at (cs := exDuo) 3 rfl (k := 3) (by decide +kernel)
  obtain ⟨g5, m5, k5⟩ := Made.at (cs := exDuo) 5 rfl (k := 5) (by decide +kernel)
  have big : exBigInt.Declarable exDuoScope := ⟨by decide, by decide, by decide, by constructor <;> decide⟩
  have f1 := SaysField.field (sc := exDuoScope) m1 rfl (by rw [k1]; exact ⟨big, by decide, by decide⟩)
  rw [k1] at f1
  have t2 := (⟨by decide, .struct m2 (.cons f1 .nil)⟩ : SaysType _ _ _ (_, _, _))
  rw [k2] at t2
  have d3 := SaysDecl.type m3 (by rw [k3]; exact .cons t2 .nil)
  rw [k3] at d3
  have d5 := SaysDecl.func (sc := exDuoScope) m5 (by decide) (by rw [k5]; exact ⟨by decide, by decide, by decide, by constructor <;> decide⟩)
    (by intro v hv; cases hv)
  rw [k5] at d5
  intro x hx
  simp only [exDuoPlans, List.mem_cons, List.not_mem_nil, or_false] at hx
  rcases hx with rfl | rfl
  · obtain ⟨g', h1, h2⟩ : ∃ g', (BuildCall.newFile (b! "item.go") (b! "x/shop") (b! "shop")).exec {} = .ok g' ∧
        ((steps (exDuo.drop 1) g').filterMap (added? 0)) = [.types 3] := ⟨_, rfl, by decide +kernel⟩
    have m0 : Made exDuo (.newFile (b! "item.go") exDuoScope.own (b! "shop")) {} (exDuo.drop 1) := ⟨[], rfl, rfl⟩
    refine SaysFile.file m0 h1 ?_
    have h3 : List.Forall₂ (SaysDecl exDuoScope exDuo) [.types 3] _ := .cons d3 .nil
    rw [← h2] at h3
    exact h3
  · have hx : ((build (exDuo.take 4) {}).bind fun g => ((BuildCall.newFile (b! "new.go") (b! "x/shop") (b! "shop")).exec g).bind fun g' =>
        .ok (g.next, (steps (exDuo.drop 5) g').filterMap (added? g.next))) = .ok (4, [.func 5]) := by decide +kernel
    obtain ⟨g, h1, hx⟩ := bind_eq_ok hx
    obtain ⟨g', h2, hx⟩ := bind_eq_ok hx
    simp only [Outcome.ok.injEq, Prod.mk.injEq] at hx
    have m4 : Made exDuo (.newFile (b! "new.go") exDuoScope.own (b! "shop")) g (exDuo.drop 5) := ⟨exDuo.take 4, rfl, h1⟩
    have h3 : List.Forall₂ (SaysDecl exDuoScope exDuo) [.func 5] _ := .cons d5 .nil
    rw [← hx.2] at h3
    have := SaysFile.file m4 h2 h3
    rw [hx.1] at this
    exact this

theorem exDuo_proper : Proper (fun _ => b! "big") (b! "x/shop") ([b! "Item", b! "New"] ++ predeclaredNames ++ [b! "init"]) exDuo := by
  have splitTags : ∀ x ∈ splits exDuo, ∀ q tag, x.2.1 ≠ .setTag q tag := by simp [exDuo, splits]
  have splitSigs : ∀ x ∈ splits exDuo, ∀ q c, x.2.1 ≠ .methodSig q c := by simp [exDuo, splits]
  refine ⟨?_, ⟨?_, ?_⟩, ?_⟩
  · intro c hc pk hpk
    have h1 : ∀ pk ∈ exDuo.flatMap BuildCall.given, pk = ⟨b! "x/shop", b! "shop"⟩ ∨ pk = ⟨b! "math/big", b! "big"⟩ := by decide
    rcases h1 pk (List.mem_flatMap.2 ⟨c, hc, hpk⟩) with rfl | rfl
    · exact .inr (.inl rfl)
    · exact .inr (.inr ⟨.inr rfl, by decide, candidate_prefix (by decide)⟩)
  · intro pre q tag post he
    exact absurd rfl (splitTags (pre, .setTag q tag, post) (he ▸ mem_splits) q tag)
  · intro pre q c post he
    exact absurd rfl (splitSigs (pre, .methodSig q c, post) (he ▸ mem_splits) q c)
  · intro c hc a ha
    simp only [exDuo, List.mem_cons, List.not_mem_nil, or_false] at hc
    rcases hc with rfl | rfl | rfl | rfl | rfl | rfl | rfl | rfl | rfl | rfl <;>
      simp only [BuildCall.args, CodeCall.args, List.not_mem_nil, List.mem_cons, or_false] at ha
    subst ha
    trivial

/-- What the argument refers to. -/
theorem exDuo_item {h : Heap} (hb : build exDuo {} = .ok h) {r : Reference} :
    Denotes h (.typeSpec 2) r ↔ r = .symbol (newSymbol (b! "x/shop") (b! "Item")) := by
  have h1 : ((build exDuo {}).bind fun h => .ok (((h.types 2).map fun t => (t.name, t.parent)), (h.files 0).map fun f =>
      (f.imports.pkgPath, f.packageName))) = .ok (some (b! "Item", some 0), some (b! "x/shop", b! "shop")) := by decide +kernel
  rw [hb] at h1
  simp only [Outcome.bind, Outcome.ok.injEq, Prod.mk.injEq, Option.map_eq_some_iff] at h1
  obtain ⟨⟨t, h2, h3, h4⟩, file, h5, h6, h7⟩ := h1
  constructor
  · intro hd
    cases hd with
    | typeSpec k1 k2 k3 k4 =>
      rw [h2] at k1
      obtain rfl := Option.some.inj k1
      rw [h4] at k3
      obtain rfl := Option.some.inj k3
      rw [h5] at k4
      obtain rfl := Option.some.inj k4
      rw [h3, h6, h7]
      rfl
  · rintro rfl
    have := Denotes.typeSpec h2 (by rw [h3]; decide) h4 h5
    rw [h3, h6, h7] at this
    exact this

theorem exDuo_shown {h : Heap} (hb : build exDuo {} = .ok h) {tbl i sh} (hi : i.pkgPath = b! "x/shop")
    (ha : ArgWritten tbl h i (.typeSpec 2) sh) : sh = .str (b! "Item") := by
  cases ha with
  | ref hd _ _ ht =>
    rw [exDuo_item hb] at hd
    subst hd
    cases ht
    have h1 : prefixOf i (b! "x/shop") = [] := prefixOf_own hi.symm
    simp only [Shown.str.injEq]
    rw [writtenSymbol, if_neg (by decide)]
    show prefixOf i (b! "x/shop") ++ b! "Item" = _
    rw [h1]
    rfl

theorem exDuo_code {env : Env} {K : KnownTemplates env} {h : Heap} (hb : build exDuo {} = .ok h) : CodeSays K h (b! "x/shop") exDuo := by
  refine ⟨?_, ?_, ?_⟩
  · intro r n g post hm
    obtain ⟨pre, h1, h2⟩ := hm
    have h3 : ∀ x ∈ splits exDuo, ∀ r n, x.2.1 = .newFunc r n → x.1 = exDuo.take 5 ∧ x.2.2 = exDuo.drop 6 := by
      simp [exDuo, splits]
    obtain ⟨h4, h5⟩ := h3 _ (h1 ▸ mem_splits) r n rfl
    obtain rfl : pre = _ := h4
    obtain rfl : post = _ := h5
    have h6 : g.next = 5 := by
      have : ((build (exDuo.take 5) {}).bind fun g => .ok g.next) = .ok 5 := by decide +kernel
      rw [h2] at this
      exact Outcome.ok.inj this
    rw [h6]
    show CallsRead _ h _ _ [.printlnf (b! "return new(%s)") [.typeSpec 2]]
    refine ⟨?_, ?_⟩
    · intro c hc
      simp only [List.mem_singleton] at hc
      subst hc
      refine ⟨fun a ha => ?_, fun i shown hs => ?_⟩
      · simp only [List.mem_singleton] at ha
        subst ha
        exact .inr (.inr ⟨_, (exDuo_item hb).2 rfl, trivial, by simp⟩)
      · obtain ⟨a, l, h1, h2, rfl⟩ := List.forall₂_cons_left_iff.1 hs
        rw [List.forall₂_nil_left_iff.1 h2]
        cases h1 with
        | ref => simp [sprintf, fmtVerb]
    · intro i texts hi hid hT
      obtain ⟨t, l, h1, h2, rfl⟩ := List.forall₂_cons_left_iff.1 hT
      rw [List.forall₂_nil_left_iff.1 h2]
      cases h1 with | line h1 => ?_
      cases h1 with
      | printlnf ha hs =>
        obtain ⟨a, l, h3, h4, rfl⟩ := List.forall₂_cons_left_iff.1 ha
        rw [List.forall₂_nil_left_iff.1 h4, exDuo_shown hb hi h3] at hs
        have h5 : sprintf env.isPrint (b! "return new(%s)" ++ b! "\n") [.str (b! "Item")] = some (b! "return new(Item)" ++ b! "\n") := by
          rfl
        rw [h5] at hs
        obtain rfl := Option.some.inj hs
        have h6 : lex (b! "return new(Item)") = some [.kw .kReturn, .ident (b! "new"), .lparen, .ident (b! "Item"), .rparen] := by
          decide
        have h7 := BodyToks.lines h6 (.tok rfl rfl rfl (.tok rfl rfl rfl
          (.group (o := .lparen) (a := [.ident (b! "Item")]) rfl (.tok rfl rfl rfl .nil) (.tok rfl rfl rfl .nil))))
        exact ⟨_, by simpa using h7⟩
  · intro p b hm
    simp [exDuo] at hm
  · intro p format args g post hm
    obtain ⟨pre, h1, h2⟩ := hm
    have h3 : ∀ x ∈ splits exDuo, ∀ p format args, x.2.1 ≠ .initWith p format args := by simp [exDuo, splits]
    exact absurd rfl (h3 _ (h1 ▸ mem_splits) p format args)

theorem exDuo_sensible : Sensible exDuo := by
  refine ⟨?_, ?_, ?_, ?_, ?_, ?_, ?_, ?_⟩
  · intro c hc
    simp only [exDuo, List.mem_cons, List.not_mem_nil, or_false] at hc
    rcases hc with rfl | rfl | rfl | rfl | rfl | rfl | rfl | rfl | rfl | rfl <;> trivial
  · intro c hc a ha
    simp only [exDuo, List.mem_cons, List.not_mem_nil, or_false] at hc
    rcases hc with rfl | rfl | rfl | rfl | rfl | rfl | rfl | rfl | rfl | rfl <;>
      simp only [BuildCall.args, CodeCall.args, List.not_mem_nil, List.mem_cons, or_false] at ha
    subst ha
    trivial
  · intro r n g post hm
    obtain ⟨pre, h1, h2⟩ := hm
    have h3 : ∀ x ∈ splits exDuo, ∀ r n, x.2.1 = .newFunc r n → x.1 = exDuo.take 5 ∧ x.2.2 = exDuo.drop 6 := by
      simp [exDuo, splits]
    obtain ⟨h4, h5⟩ := h3 _ (h1 ▸ mem_splits) r n rfl
    obtain rfl : pre = _ := h4
    obtain rfl : post = _ := h5
    have h6 : ((build (exDuo.take 5) {}).bind fun g => .ok (sigBuilt (.func g.next) (exDuo.drop 6)).valid) = .ok true := by
      decide +kernel
    rw [h2] at h6
    exact Outcome.ok.inj h6
  · intro n g post hm
    obtain ⟨pre, h1, h2⟩ := hm
    have h3 : ∀ x ∈ splits exDuo, ∀ n, x.2.1 ≠ .newInterfaceMethod n := by simp [exDuo, splits]
    exact absurd rfl (h3 _ (h1 ▸ mem_splits) n)
  · intro c hc v hv
    simp only [exDuo, List.mem_cons, List.not_mem_nil, or_false] at hc
    rcases hc with rfl | rfl | rfl | rfl | rfl | rfl | rfl | rfl | rfl | rfl <;> cases hv
  · intro n path name hm
    have h1 : path = b! "x/shop" := by
      simp [exDuo] at hm
      rcases hm with hm | hm <;> exact hm.2.1
    rw [h1]
    decide
  · intro c hc pk hpk
    have h1 : ∀ pk ∈ exDuo.flatMap BuildCall.given, pk.importPath = [] → pk = ⟨[], []⟩ := by decide
    exact h1 pk (List.mem_flatMap.2 ⟨c, hc, hpk⟩)
  · intro c hc a ha pk hpk
    have h1 : ∀ pk ∈ (exDuo.flatMap BuildCall.args).flatMap Arg.handed, pk.importPath ≠ [] := by decide +kernel
    exact h1 pk (List.mem_flatMap.2 ⟨a, List.mem_flatMap.2 ⟨c, hc, ha⟩, hpk⟩)

/-- For a program that makes no types without names, `FilesApart` can be computed. -/
def apartAt (owner : Ptr → Ptr) (files : List Ptr) (x : List BuildCall × BuildCall × List BuildCall) : Bool :=
  match (build x.1 {}).bind fun g => (x.2.1.exec g).bind fun g' => .ok (g.next, g'.next) with
  | .ok (lo, hi) => files.any fun file => x.2.1.uses.all (owner · == file) && (List.range' lo (hi - lo)).all (owner · == file)
  | _ => false

theorem apart_of_check {owner : Ptr → Ptr} {files : List Ptr} {cs : List BuildCall} (hn : ∀ c ∈ cs, c.typeName? ≠ some [])
    (h : (splits cs).all (apartAt owner files) = true) : FilesApart owner cs := by
  rintro c g post ⟨pre, rfl, h2⟩
  have h3 := List.all_eq_true.1 h _ mem_splits
  simp only [apartAt, h2, Outcome.bind] at h3
  have hu : ∀ p, ¬ Unnamed (pre ++ c :: post) p := by
    rintro p ⟨c', g', post', ⟨pre', h4, -⟩, -, h5⟩
    exact hn c' (by rw [h4]; simp) h5
  cases hx : c.exec g with
  | panic => rw [hx] at h3; cases h3
  | hang => rw [hx] at h3; cases h3
  | ok g' =>
    rw [hx] at h3
    simp only [List.any_eq_true, Bool.and_eq_true, List.all_eq_true, beq_iff_eq] at h3
    obtain ⟨file, -, h4, h5⟩ := h3
    refine ⟨file, h4, fun p _ hp => absurd hp (hu p), fun g1 e p h6 h7 => ?_⟩
    obtain rfl := Outcome.ok.inj e
    exact h5 p (List.mem_range'_1.2 ⟨h6, lt_of_lt_of_eq h7 (Nat.add_sub_cancel' (Nat.le_of_lt (lt_of_le_of_lt h6 h7))).symm⟩)

/-- The calls keep the files apart, although the code in the second file refers to the type in the first one. -/
theorem exDuo_apart : FilesApart exDuoOwner exDuo :=
  apart_of_check (files := [0, 4]) (by decide) (by decide +kernel)

/-- So the second file is written the same after the first one. -/
example {h : Heap} (hb : build exDuo {} = .ok h) :
    (renderFile exEnv 3 4 (renderFile exEnv 3 0 h).2).1 = (renderFile exEnv 3 4 h).1 :=
  (C63_undisturbed 3 (by decide) (exDuo_apart.undisturbed hb (by decide)) (exEnv_byString _ _).writes).1

/-- C78 (g) for the example. -/
theorem exDuo_package {env : Env}
    (hfmt : ∀ text src, parseGoFile text = some src → ∃ out, env.format text = some out) :
    ∃ h fuel outs h' srcs, build exDuo {} = .ok h ∧ RenderedInTurn env fuel h [0, 4] outs h' ∧
      List.Forall₂ (fun out src => ∃ text, env.format text = some out ∧ parseGoFile text = some src) outs srcs ∧
      LegalPackage srcs (b! "shop") (fun _ => b! "big") ∧
      List.Forall₂ (fun (x : FilePlan) src => src.meaning (b! "x/shop") (packageNames srcs) (fun _ => b! "big") = some x.2) exDuoPlans srcs := by
  have hnames : Declared.names (plansDeclared exDuoPlans) = [b! "Item", b! "New"] := by
    rw [exDuo_declared]
    decide
  have hx : ((build exDuo {}).bind fun _ => .ok ()) = .ok () := by decide +kernel
  obtain ⟨h, hb, -⟩ := bind_eq_ok hx
  obtain ⟨fuel, outs, h', srcs, h1, h2, h3, h4⟩ := C78_apart (env := env) (plans := exDuoPlans) hb
    (by rw [hnames]; exact exDuo_says) (by rw [hnames]; exact exDuo_proper) (exDuo_code (K := noTemplates env) hb) exDuo_sensible (by decide)
    (by rw [exDuo_declared]; decide) (by rw [exDuo_declared]; decide) (by decide) exDuo_apart (by decide) hfmt
  exact ⟨h, fuel, outs, h', srcs, hb, h1, h2, h3, h4.imp fun _ _ k => k.meaning⟩

/-- A type for fields of both files is not kept apart. -/
example : ¬ ∃ owner, owner 0 = 0 ∧ owner 1 = 1 ∧ FilesApart owner
    [.newFile (b! "a.go") (b! "x") (b! "x"), .newFile (b! "b.go") (b! "x") (b! "x"), .newStructTypeSpec (b! "T") [],
     .addType 0 2, .addType 1 2] := by
  rintro ⟨owner, h0, h1, ha⟩
  obtain ⟨file, h2, -⟩ := ha (.addType 0 2) _ _ ⟨[_, _, _], rfl, rfl⟩
  obtain ⟨file', h3, -⟩ := ha (.addType 1 2) _ _ ⟨[_, _, _, _], rfl, rfl⟩
  simp only [BuildCall.uses, List.mem_cons, List.not_mem_nil, or_false, forall_eq_or_imp, forall_eq] at h2 h3
  rw [h0] at h2
  rw [h1] at h3
  have h4 := (h2.1.trans h2.2.symm).trans (h3.2.trans h3.1.symm)
  cases h4

end Gopoet
