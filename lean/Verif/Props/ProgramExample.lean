import Verif.Props.ProgramWritten
import Verif.Proof.TemplateWhole
/-! A program to which C78 applies. -/

namespace Gopoet
open Imports

/-- The ways to split a list at an element. -/
def splits {α : Type} : List α → List (List α × α × List α)
  | [] => []
  | a :: l => ([], a, l) :: (splits l).map fun x => (a :: x.1, x.2)

theorem mem_splits {α : Type} {a : α} {post : List α} : ∀ {pre : List α}, (pre, a, post) ∈ splits (pre ++ a :: post)
  | [] => by simp [splits]
  | b :: pre => by
    simp only [List.cons_append, splits, List.mem_cons, List.mem_map]
    exact .inr ⟨_, mem_splits (pre := pre), rfl⟩

theorem forall_splits {α : Type} {P : List α → α → List α → Prop} {l : List α} (h : ∀ x ∈ splits l, P x.1 x.2.1 x.2.2) {pre post : List α} {a : α}
    (he : l = pre ++ a :: post) : P pre a post := h (pre, a, post) (he ▸ mem_splits)

/-- The call at this place makes the object at this address. -/
theorem Made.at {cs : List BuildCall} {c : BuildCall} {k : Ptr} (n : Nat) (hc : cs[n]? = some c)
    (hk : ((build (cs.take n) {}).bind fun g => .ok g.next) = .ok k) : ∃ g, Made cs c g (cs.drop (n + 1)) ∧ g.next = k := by
  obtain ⟨g, h1, h2⟩ := bind_eq_ok hk
  refine ⟨g, ⟨cs.take n, ?_, h1⟩, by cases h2; rfl⟩
  obtain ⟨h3, rfl⟩ := List.getElem?_eq_some_iff.1 hc
  rw [List.getElem_cons_drop, List.take_append_drop]

/-- A symbol of another package is written with an identifier as name of the package, where it is imported. -/
theorem writtenSymbol_forms {i : Imports} (hi : ∀ path ∈ i.importedPaths, isIdent (i.qualifierOf path) = true) (s : Symbol) :
    writtenSymbol i s = s.name ∨ ∃ q, isIdent q = true ∧ writtenSymbol i s = q ++ b! "." ++ s.name := by
  rw [writtenSymbol]
  split
  · exact .inl rfl
  · by_cases h1 : s.package.importPath = i.pkgPath
    · rw [prefixOf_own h1]
      exact .inl rfl
    · cases h2 : i.importsByPath.get s.package.importPath with
      | none => rw [prefixOf_unknown h1 h2]; exact .inl rfl
      | some d =>
        have h3 := hi s.package.importPath ((mem_importPaths _ _).2 (by simp [h2]))
        rw [Imports.qualifierOf, if_neg h1, h2] at h3
        rw [prefixOf_known h1 h2]
        exact .inr ⟨d.packageName, h3, rfl⟩

theorem lex_symbol {i : Imports} (hi : ∀ path ∈ i.importedPaths, isIdent (i.qualifierOf path) = true) {s : Symbol}
    (hs : isIdent s.name = true) {rest : GoString} {tl : List Tok} (hd : Delim rest) (hl : Lex rest tl) :
    Lex (writtenSymbol i s ++ rest) (.ident s.name :: tl) ∨ ∃ q, Lex (writtenSymbol i s ++ rest) (.ident q :: .dot :: .ident s.name :: tl) := by
  rcases writtenSymbol_forms hi s with h | ⟨q, h1, h⟩
  · rw [h]
    exact .inl (.ident hs hd hl)
  · rw [h, List.append_assoc, List.append_assoc]
    exact .inr ⟨q, .ident h1 (delim_cons (by decide)) (.dot (s := s.name ++ rest) (isIdent_head hs) (.ident hs hd hl))⟩

def exBigInt : TypeName := .ptr (.named (newSymbol (b! "math/big") (b! "Int")))

/-- The file shop.go of package x/shop. -/
def exShop : List BuildCall :=
  [.newFile (b! "shop.go") (b! "x/shop") (b! "shop"),
   .newField (b! "Name") (.name (.basic .string)), .setTag 1 (b! "json:\"name\""), .newField (b! "Price") (.name exBigInt),
   .newStructTypeSpec (b! "Item") [1, 2], .addType 0 3,
   .newInterfaceMethod (b! "Total"), .methodSig 5 (.addResult [] exBigInt), .newInterfaceTypeSpec (b! "Cart") [.method 5], .addType 0 6,
   .newFunc (some { name := b! "i", type := b! "Item", isPointer := true }) (b! "String"), .funcSig 8 (.addResult [] (.basic .string)),
   .funcCode 8 (.printlnf (b! "return %s(i.Name)") [.symbol (newSymbol (b! "strings") (b! "ToUpper"))]), .addElement 0 (.func 8),
   .newValue .var [b! "Free"], .initWith 10 (b! "new(%s)") [.symbol (newSymbol (b! "math/big") (b! "Int"))], .addValue 0 .var 10]

/-- `*big.Int` -/
def exBigIntMeaning : GoType TypeIdent := .ptr (.name (.declared (b! "math/big") (b! "Int")))

/-- What it says. -/
def exShopSays : List DeclMeaning :=
  [.types [(b! "Item", false, .struct [.mk (some (b! "Name")) (.name (.builtin (b! "string"))) (some (b! "json:\"name\"")),
     .mk (some (b! "Price")) exBigIntMeaning none])],
   .types [(b! "Cart", false, .iface [.method (b! "Total") (.mk [] false [.mk none exBigIntMeaning])])],
   .func (some (.mk (some (b! "i")) (.ptr (.name (.declared (b! "x/shop") (b! "Item")))))) (b! "String")
     (.mk [] false [.mk none (.name (.builtin (b! "string")))]),
   .values false [([b! "Free"], none)]]

def exShopText : GoString := b! "package shop

import \"math/big\"
import \"strings\"

type Item  struct {
Name string `json:\"name\"`
Price *big.Int
}

type Cart  interface {
Total() *big.Int
}

func (i *Item) String() string {
return strings.ToUpper(i.Name)
}

var Free = new(big.Int)
"

example : ((build exShop {}).bind fun h => (renderFile exEnv 3 0 h).1) = .ok exShopText := by decide +kernel

theorem exShop_declared : declaredBy exShopSays = [.name (b! "Item"), .name (b! "Cart"), .method (b! "Item") (b! "String"), .name (b! "Free")] := by
  decide +kernel

/-- The names in the package. -/
def exShopScope : FileScope := packageScope (b! "x/shop") [b! "Item", b! "Cart", b! "Free"]

theorem exShop_says : SaysFile exShopScope exShop 0 (b! "shop") exShopSays := by
  obtain ⟨g1, m1, k1⟩ := Made.at (cs := exShop) 1 rfl (k := 1) (by decide +kernel)
  obtain ⟨g2, m2, k2⟩ := Made.at (cs := exShop) 3 rfl (k := 2) (by decide +kernel)
  obtain ⟨g3, m3, k3⟩ := Made.at (cs := exShop) 4 rfl (k := 3) (by decide +kernel)
  obtain ⟨g4, m4, k4⟩ := Made.at (cs := exShop) 5 rfl (k := 4) (by decide +kernel)
  obtain ⟨g5, m5, k5⟩ := Made.at (cs := exShop) 6 rfl (k := 5) (by decide +kernel)
  obtain ⟨g6, m6, k6⟩ := Made.at (cs := exShop) 8 rfl (k := 6) (by decide +kernel)
  obtain ⟨g7, m7, k7⟩ := Made.at (cs := exShop) 9 rfl (k := 7) (by decide +kernel)
  obtain ⟨g8, m8, k8⟩ := Made.at (cs := exShop) 10 rfl (k := 8) (by decide +kernel)
  obtain ⟨g9, m9, k9⟩ := Made.at (cs := exShop) 14 rfl (k := 10) (by decide +kernel)
  obtain ⟨g10, m10, k10⟩ := Made.at (cs := exShop) 16 rfl (k := 13) (by decide +kernel)
  have big : exBigInt.Declarable exShopScope := ⟨by decide, by decide, by decide, by constructor <;> decide⟩
  have string : (TypeName.basic .string).Declarable exShopScope := ⟨by decide, by decide, by decide, by constructor <;> decide⟩
  have f1 := SaysField.field (sc := exShopScope) m1 rfl (by rw [k1]; exact ⟨string, by decide, by decide⟩)
  have f2 := SaysField.field (sc := exShopScope) m2 rfl (by rw [k2]; exact ⟨big, by decide, by decide⟩)
  rw [k1] at f1
  rw [k2] at f2
  have t3 := (⟨by decide, .struct m3 (.cons f1 (.cons f2 .nil))⟩ : SaysType _ _ _ (_, _, _))
  rw [k3] at t3
  have e5 := SaysElem.method (sc := exShopScope) m5 (by decide) (by rw [k5]; exact ⟨by decide, by decide, by decide, by constructor <;> decide⟩)
  rw [k5] at e5
  have t6 := (⟨by decide, .iface m6 (.cons e5 .nil)⟩ : SaysType _ _ _ (_, _, _))
  rw [k6] at t6
  have d4 := SaysDecl.type m4 (by rw [k4]; exact .cons t3 .nil)
  rw [k4] at d4
  have d7 := SaysDecl.type m7 (by rw [k7]; exact .cons t6 .nil)
  rw [k7] at d7
  have d8 := SaysDecl.func (sc := exShopScope) m8 (by decide) (by rw [k8]; exact ⟨by decide, by decide, by decide, by constructor <;> decide⟩)
    (by intro v hv; cases hv; decide)
  rw [k8] at d8
  have v9 := SaysValue.value (sc := exShopScope) m9 (by decide) (by decide) (t := none) (by rw [k9]; exact .nil) (by rw [k9]; decide)
  rw [k9] at v9
  have d10 := SaysDecl.value m10 (by rw [k10]; exact .cons v9 .nil)
  rw [k10] at d10
  obtain ⟨g', h1, h2⟩ : ∃ g', (BuildCall.newFile (b! "shop.go") (b! "x/shop") (b! "shop")).exec {} = .ok g' ∧
      ((steps (exShop.drop 1) g').filterMap (added? 0)) = [.types 4, .types 7, .func 8, .values 13] := ⟨_, rfl, by decide +kernel⟩
  have m0 : Made exShop (.newFile (b! "shop.go") exShopScope.own (b! "shop")) {} (exShop.drop 1) := ⟨[], rfl, rfl⟩
  refine SaysFile.file m0 h1 (Ms := exShopSays) ?_
  have h3 : List.Forall₂ (SaysDecl exShopScope exShop) [.types 4, .types 7, .func 8, .values 13] exShopSays :=
    .cons d4 (.cons d7 (.cons d8 (.cons d10 .nil)))
  rw [← h2] at h3
  exact h3

theorem candidate_prefix {base : GoString} {names : List GoString} (h : ∀ n ∈ names, ¬ base <+: n) (n : Nat) : candidate base n ∉ names := by
  intro hm
  refine h _ hm ?_
  cases n with
  | zero => exact List.prefix_refl _
  | succ n => exact List.prefix_append _ _

theorem exShop_proper : Proper (fun p => if p = b! "math/big" then b! "big" else b! "strings") (b! "x/shop")
    ([b! "Item", b! "Cart", b! "Free"] ++ predeclaredNames ++ [b! "init"]) exShop := by
  have splitTags : ∀ x ∈ splits exShop, ∀ q tag, x.2.1 = .setTag q tag → x.1 = exShop.take 2 ∧ q = 1 := by
    simp [exShop, splits]
  have splitSigs : ∀ x ∈ splits exShop, ∀ q c, x.2.1 = .methodSig q c → x.1 = exShop.take 7 ∧ q = 5 := by
    simp [exShop, splits]
  refine ⟨?_, ⟨?_, ?_⟩, ?_⟩
  · intro c hc pk hpk
    have h1 : ∀ pk ∈ exShop.flatMap BuildCall.given, pk = ⟨b! "x/shop", b! "shop"⟩ ∨ pk = ⟨b! "math/big", b! "big"⟩ ∨ pk = ⟨b! "strings", b! "strings"⟩ := by
      decide
    rcases h1 pk (List.mem_flatMap.2 ⟨c, hc, hpk⟩) with rfl | rfl | rfl
    · exact .inr (.inl rfl)
    · exact .inr (.inr ⟨.inr rfl, by decide, candidate_prefix (by decide)⟩)
    · exact .inr (.inr ⟨.inr rfl, by decide, candidate_prefix (by decide)⟩)
  · intro pre q tag post he
    obtain ⟨h1, rfl⟩ := splitTags (pre, .setTag q tag, post) (he ▸ mem_splits) q tag rfl
    obtain rfl : pre = _ := h1
    obtain ⟨g, h2, h3⟩ := Made.at (cs := exShop.take 2) 1 rfl (k := 1) (by decide +kernel)
    exact ⟨⟨_, _, g, _, h2, h3⟩, by simp [exShop]⟩
  · intro pre q c post he
    obtain ⟨h1, rfl⟩ := splitSigs (pre, .methodSig q c, post) (he ▸ mem_splits) q c rfl
    obtain rfl : pre = _ := h1
    obtain ⟨g, h2, h3⟩ := Made.at (cs := exShop.take 7) 6 rfl (k := 5) (by decide +kernel)
    exact ⟨⟨_, g, _, h2, h3⟩, by simp [exShop]⟩
  · intro c hc a ha
    simp only [exShop, List.mem_cons, List.not_mem_nil, or_false] at hc
    rcases hc with rfl | rfl | rfl | rfl | rfl | rfl | rfl | rfl | rfl | rfl | rfl | rfl | rfl | rfl | rfl | rfl | rfl <;>
      simp [BuildCall.args, CodeCall.args] at ha <;> subst ha <;> trivial

theorem argWritten_symbol {tbl h i s sh} (ha : ArgWritten tbl h i (.symbol s) sh) : sh = .str (writtenSymbol i s) := by
  cases ha with
  | ref hd _ _ ht =>
    cases hd
    cases ht
    rfl

/-- The code of the function and the initializer are written as such. -/
theorem exShop_code {env : Env} {K : KnownTemplates env} {h : Heap} : CodeSays K h (b! "x/shop") exShop := by
  refine ⟨?_, ?_, ?_⟩
  · intro r n g post hm
    obtain ⟨pre, h1, h2⟩ := hm
    have h3 : ∀ x ∈ splits exShop, ∀ r n, x.2.1 = .newFunc r n → x.1 = exShop.take 10 ∧ x.2.2 = exShop.drop 11 := by
      simp [exShop, splits]
    obtain ⟨h4, h5⟩ := h3 _ (h1 ▸ mem_splits) r n rfl
    obtain rfl : pre = _ := h4
    obtain rfl : post = _ := h5
    have h6 : g.next = 8 := by
      have : ((build (exShop.take 10) {}).bind fun g => .ok g.next) = .ok 8 := by decide +kernel
      rw [h2] at this
      exact Outcome.ok.inj this
    rw [h6]
    show CallsRead _ h _ _ [.printlnf (b! "return %s(i.Name)") [.symbol (newSymbol (b! "strings") (b! "ToUpper"))]]
    refine ⟨?_, ?_⟩
    · intro c hc
      simp only [List.mem_singleton] at hc
      subst hc
      refine ⟨fun a ha => ?_, fun i shown hs => ?_⟩
      · simp only [List.mem_singleton] at ha
        subst ha
        exact .inr (.inr ⟨_, .symbol _, trivial, by simp⟩)
      · obtain ⟨a, l, h1, h2, rfl⟩ := List.forall₂_cons_left_iff.1 hs
        rw [List.forall₂_nil_left_iff.1 h2, argWritten_symbol h1]
        simp [sprintf, fmtVerb]
    · intro i texts _ hid hT
      obtain ⟨t, l, h1, h2, rfl⟩ := List.forall₂_cons_left_iff.1 hT
      rw [List.forall₂_nil_left_iff.1 h2]
      cases h1 with | line h1 => ?_
      cases h1 with
      | printlnf ha hs =>
        obtain ⟨a, l, h3, h4, rfl⟩ := List.forall₂_cons_left_iff.1 ha
        rw [List.forall₂_nil_left_iff.1 h4, argWritten_symbol h3] at hs
        simp [sprintf, fmtVerb] at hs
        subst hs
        have h5 : Lex (b! "(i.Name)") [.lparen, .ident (b! "i"), .dot, .ident (b! "Name"), .rparen] := Lex.of_lex (by decide)
        have h6 : ∃ ts, lex (b! "return " ++ (writtenSymbol i (newSymbol (b! "strings") (b! "ToUpper")) ++ b! "(i.Name)")) = some ts ∧
            Balanced (fun _ => true) (insertSemis ts) := by
          have h8 : ∀ {l : List Tok}, Balanced (fun _ => true) (l ++ [.semi]) →
              Balanced (fun _ => true) (.lparen :: .ident (b! "i") :: .dot :: .ident (b! "Name") :: .rparen :: (l ++ [.semi])) := fun hl =>
            .group (o := .lparen) (a := [.ident (b! "i"), .dot, .ident (b! "Name")]) rfl
              (.tok rfl rfl rfl (.tok rfl rfl rfl (.tok rfl rfl rfl .nil))) hl
          have h9 := h8 (l := []) (.tok rfl rfl rfl .nil)
          rcases lex_symbol hid (s := newSymbol (b! "strings") (b! "ToUpper")) (by decide) (delim_cons (by decide)) h5 with h7 | ⟨q, h7⟩
          · exact ⟨_, (Lex.word (w := b! "return") (by decide) (delim_cons (by decide)) (Lex.space h7)).lex, .tok rfl rfl rfl (.tok rfl rfl rfl h9)⟩
          · exact ⟨_, (Lex.word (w := b! "return") (by decide) (delim_cons (by decide)) (Lex.space h7)).lex,
              .tok rfl rfl rfl (.tok rfl rfl rfl (.tok rfl rfl rfl (.tok rfl rfl rfl h9)))⟩
        obtain ⟨ts, h7, h8⟩ := h6
        have h9 := BodyToks.lines h7 h8
        simp only [List.append_assoc] at h9
        exact ⟨_, by simpa using h9⟩
  · intro p b hm
    simp [exShop] at hm
  · intro p format args g post hm
    obtain ⟨pre, h1, h2⟩ := hm
    have h3 : ∀ x ∈ splits exShop, ∀ p format args, x.2.1 = .initWith p format args → x.1 = exShop.take 15 ∧ x.2.2 = exShop.drop 16 ∧
        format = b! "new(%s)" ∧ args = [.symbol (newSymbol (b! "math/big") (b! "Int"))] := by
      simp [exShop, splits]
    obtain ⟨h4, h5, rfl, rfl⟩ := h3 _ (h1 ▸ mem_splits) p format args rfl
    obtain rfl : pre = _ := h4
    obtain rfl : post = _ := h5
    have h6 : g.next = 11 := by
      have : ((build (exShop.take 15) {}).bind fun g => .ok g.next) = .ok 11 := by decide +kernel
      rw [h2] at this
      exact Outcome.ok.inj this
    rw [h6]
    show CallsRead _ h _ _ [.printf (b! "new(%s)") [.symbol (newSymbol (b! "math/big") (b! "Int"))]]
    refine ⟨?_, ?_⟩
    · intro c hc
      simp only [List.mem_singleton] at hc
      subst hc
      refine ⟨fun a ha => ?_, fun i shown hs => ?_⟩
      · simp only [List.mem_singleton] at ha
        subst ha
        exact .inr (.inr ⟨_, .symbol _, trivial, by simp⟩)
      · obtain ⟨a, l, h1, h2, rfl⟩ := List.forall₂_cons_left_iff.1 hs
        rw [List.forall₂_nil_left_iff.1 h2, argWritten_symbol h1]
        simp [sprintf, fmtVerb]
    · intro i texts _ hid hT
      obtain ⟨t, l, h1, h2, rfl⟩ := List.forall₂_cons_left_iff.1 hT
      rw [List.forall₂_nil_left_iff.1 h2]
      cases h1 with | line h1 => ?_
      cases h1 with
      | printf ha hs =>
        obtain ⟨a, l, h3, h4, rfl⟩ := List.forall₂_cons_left_iff.1 ha
        rw [List.forall₂_nil_left_iff.1 h4, argWritten_symbol h3] at hs
        simp [sprintf, fmtVerb] at hs
        subst hs
        have h5 : Lex (b! ")") [.rparen] := Lex.of_lex (by decide)
        have h6 : ∀ {a : List Tok}, Balanced (fun _ => true) a → Balanced (fun t => !endsSpec t) (.ident (b! "new") :: .lparen :: (a ++ [.rparen])) :=
          fun ha => .tok rfl rfl rfl (.group rfl ha .nil)
        rw [List.flatten_cons, List.flatten_nil, List.append_nil]
        rcases lex_symbol hid (s := newSymbol (b! "math/big") (b! "Int")) (by decide) (delim_cons (by decide)) h5 with h7 | ⟨q, h7⟩
        · exact ⟨_, _, (Lex.ident (w := b! "new") (by decide) (delim_cons (by decide)) (Lex.punct' (t := .lparen) (by decide) h7)).lex, rfl, List.cons_ne_nil _ _,
            h6 (a := [_]) (.tok rfl rfl rfl .nil)⟩
        · exact ⟨_, _, (Lex.ident (w := b! "new") (by decide) (delim_cons (by decide)) (Lex.punct' (t := .lparen) (by decide) h7)).lex, rfl, List.cons_ne_nil _ _,
            h6 (a := [_, _, _]) (.tok rfl rfl rfl (.tok rfl rfl rfl (.tok rfl rfl rfl .nil)))⟩


/-- C78 for the example: the text is a Go file with these declarations and no other imports than it uses. -/
theorem exShop_package : ∃ src, parseGoFile exShopText = some src ∧ src.package = b! "shop" ∧
    src.LegalNames [] (fun p => if p = b! "math/big" then b! "big" else b! "strings") ∧
    src.meaning (b! "x/shop") [b! "Item", b! "Cart", b! "Free"] (fun p => if p = b! "math/big" then b! "big" else b! "strings") =
      some exShopSays := by
  have hnames : Declared.names ([] ++ declaredBy exShopSays) = [b! "Item", b! "Cart", b! "Free"] := by
    rw [exShop_declared]
    decide
  have hx : ((build exShop {}).bind fun h => .ok ((renderFile exEnv 3 0 h).1, ((renderFile exEnv 3 0 h).2.files 0).map (·.imports.importsByPath.get []))) =
      .ok (.ok exShopText, some none) := by decide +kernel
  obtain ⟨h, hb, hx⟩ := bind_eq_ok hx
  simp only [Outcome.ok.injEq, Prod.mk.injEq, Option.map_eq_some_iff] at hx
  obtain ⟨h1, f', h2, h3⟩ := hx
  have hne : [] ∉ f'.imports.importedPaths := fun hm => (mem_importPaths _ _).1 hm h3
  obtain ⟨src, f, -, h4, h5, -, h6, h7, -⟩ := C78_program (others := []) hb (by rw [hnames]; exact exShop_says)
    (by rw [hnames]; exact exShop_proper) (exShop_code (K := noTemplates exEnv)) (by decide) (by intro n hn; cases hn) (by rw [exShop_declared]; decide)
    (by rw [exShop_declared]; decide) (Prod.ext h1 rfl) h2 hne
  rw [hnames] at h7
  exact ⟨src, h4, h5, h6, h7⟩

theorem exShop_sensible : Sensible exShop := by
  refine ⟨?_, ?_, ?_, ?_, ?_, ?_, ?_, ?_⟩
  · intro c hc
    simp only [exShop, List.mem_cons, List.not_mem_nil, or_false] at hc
    rcases hc with rfl | rfl | rfl | rfl | rfl | rfl | rfl | rfl | rfl | rfl | rfl | rfl | rfl | rfl | rfl | rfl | rfl <;>
      trivial
  · intro c hc a ha
    simp only [exShop, List.mem_cons, List.not_mem_nil, or_false] at hc
    rcases hc with rfl | rfl | rfl | rfl | rfl | rfl | rfl | rfl | rfl | rfl | rfl | rfl | rfl | rfl | rfl | rfl | rfl <;>
      simp [BuildCall.args, CodeCall.args] at ha <;> subst ha <;> trivial
  · intro r n g post hm
    obtain ⟨pre, h1, h2⟩ := hm
    have h3 : ∀ x ∈ splits exShop, ∀ r n, x.2.1 = .newFunc r n → x.1 = exShop.take 10 ∧ x.2.2 = exShop.drop 11 := by
      simp [exShop, splits]
    obtain ⟨h4, h5⟩ := h3 _ (h1 ▸ mem_splits) r n rfl
    obtain rfl : pre = _ := h4
    obtain rfl : post = _ := h5
    have h6 : ((build (exShop.take 10) {}).bind fun g => .ok (sigBuilt (.func g.next) (exShop.drop 11)).valid) = .ok true := by
      decide +kernel
    rw [h2] at h6
    exact Outcome.ok.inj h6
  · intro n g post hm
    obtain ⟨pre, h1, h2⟩ := hm
    have h3 : ∀ x ∈ splits exShop, ∀ n, x.2.1 = .newInterfaceMethod n → x.1 = exShop.take 6 ∧ x.2.2 = exShop.drop 7 := by
      simp [exShop, splits]
    obtain ⟨h4, h5⟩ := h3 _ (h1 ▸ mem_splits) n rfl
    obtain rfl : pre = _ := h4
    obtain rfl : post = _ := h5
    have h6 : ((build (exShop.take 6) {}).bind fun g => .ok (sigBuilt (.method g.next) (exShop.drop 7)).valid) = .ok true := by
      decide +kernel
    rw [h2] at h6
    exact Outcome.ok.inj h6
  · intro c hc v hv
    simp only [exShop, List.mem_cons, List.not_mem_nil, or_false] at hc
    rcases hc with rfl | rfl | rfl | rfl | rfl | rfl | rfl | rfl | rfl | rfl | rfl | rfl | rfl | rfl | rfl | rfl | rfl <;> cases hv
  · intro n path name hm
    simp [exShop] at hm
    rw [hm.2.1]
    decide
  · intro c hc pk hpk
    have h1 : ∀ pk ∈ exShop.flatMap BuildCall.given, pk.importPath = [] → pk = ⟨[], []⟩ := by decide
    exact h1 pk (List.mem_flatMap.2 ⟨c, hc, hpk⟩)
  · intro c hc a ha pk hpk
    have h1 : ∀ pk ∈ (exShop.flatMap BuildCall.args).flatMap Arg.handed, pk.importPath ≠ [] := by decide +kernel
    exact h1 pk (List.mem_flatMap.2 ⟨a, List.mem_flatMap.2 ⟨c, hc, ha⟩, hpk⟩)

/-- C78 (e) for the example, and for any environment: that the file can be written follows
from the calls alone. -/
theorem exShop_written {env : Env} : ∃ h fuel text h' src, build exShop {} = .ok h ∧
    renderFile env fuel 0 h = (.ok text, h') ∧ parseGoFile text = some src ∧ src.package = b! "shop" ∧
    src.meaning (b! "x/shop") [b! "Item", b! "Cart", b! "Free"] (fun p => if p = b! "math/big" then b! "big" else b! "strings") =
      some exShopSays := by
  have hnames : Declared.names ([] ++ declaredBy exShopSays) = [b! "Item", b! "Cart", b! "Free"] := by
    rw [exShop_declared]
    decide
  have hx : ((build exShop {}).bind fun _ => .ok ()) = .ok () := by decide +kernel
  obtain ⟨h, hb, -⟩ := bind_eq_ok hx
  obtain ⟨fuel, text, h', src, h1, h2, h3, -, -, h4, -⟩ := C78_written (env := env) (others := []) hb (by rw [hnames]; exact exShop_says)
    (by rw [hnames]; exact exShop_proper) (exShop_code (K := noTemplates env)) exShop_sensible (by decide) (by intro n hn; cases hn)
    (by rw [exShop_declared]; decide) (by rw [exShop_declared]; decide)
  rw [hnames] at h4
  exact ⟨h, fuel, text, h', src, hb, h1, h2, h3, h4⟩

end Gopoet
