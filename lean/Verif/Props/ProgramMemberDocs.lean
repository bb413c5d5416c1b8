import Verif.Props.ProgramMembers
import Verif.Props.ProgramExample
/-!
# The members of the types that a program declares (C78)

`C78_members` has the condition that what is written for a member does not end with a comment. For the types that a program declares
this follows from what it says about them.
-/

namespace Gopoet
open Imports

/-! ### What can be written stands for a type -/

theorem ElemOf.stands {h : Heap} {e : IfaceElem} {g : GoElem SynName} (he : ElemOf h e g) : ElemStands h e g := by
  cases he with
  | embed h1 h2 => exact .embed h1 h2
  | method h1 h2 h3 h4 _ => exact .method h1 h2 h3 h4

theorem ElemsOf.stand {h : Heap} : ∀ {es : List IfaceElem} {l : List (GoElem SynName)}, ElemsOf h es l →
    List.Forall₂ (ElemStands h) es l
  | _, _, .nil => .nil
  | _, _, .cons h1 h2 => .cons h1.stands h2.stand

theorem optName_some {n : GoString} (hn : isIdent n = true) : optName n = some n := by
  have h0 : n ≠ [] := by rintro rfl; simp [isIdent] at hn
  simp [optName, h0]

mutual
theorem BodyOf.stands {h : Heap} : ∀ {ts : TypeSpec} {t : SynType}, BodyOf h ts t → BodyStands h ts t
  | _, _, .struct h1 h2 => .struct h1 h2.stand
  | _, _, .iface h1 h2 => .iface h1 h2.stand
  | _, _, .other h1 h2 => .other h1 h2.1 h2.2.1
theorem FieldsOf.stand {h : Heap} : ∀ {ps : List Ptr} {l : List (GoField SynName)}, FieldsOf h ps l → FieldsStand h ps l
  | _, _, .nil => .nil
  | _, _, .cons h1 h2 h3 => .cons h1 h2.stands h3.stand
theorem FieldOf.stands {h : Heap} : ∀ {f : FieldSpec} {g : GoField SynName}, FieldOf h f g → FieldStands h f g
  | _, _, .line h1 _ h3 h4 => .type h1 h3.1 h3.2.1 h4
  | _, _, .block h1 _ h3 h4 _ h6 h7 => by
    have := FieldStands.type (h := h) h1 h3 h4 (.inr h6)
    rwa [optName_some h6, h7] at this
  | _, _, .named h1 h2 h3 h4 h5 h6 => .named h1 h2 h3 h4 h5 h6
  | _, _, .unnamed h1 h2 h3 h4 h5 h6 => by
    have := FieldStands.unnamed (h := h) h1 h2 h3 h4.stands h5
    rwa [h6] at this
end

theorem DeclaresType.stands {h : Heap} {p : Ptr} {d : DeclaredType} (hd : DeclaresType h p d) : StandsType h p d := by
  obtain ⟨ts, h1, h2, h3, h4, h5⟩ := hd
  exact ⟨ts, h1, h2, h3, h4, h5.stands⟩

/-! ### The theorem -/

/-- **C78** In the file that a program writes, the types of groups, the fields of structs and the elements of interfaces have the
comments that the calls gave them, directly above them, and no other. What is asked is what `C78_file` asks of the program; nothing
is asked of what is written. -/
theorem C78_type_members {realName : GoString → GoString} {env : Env} {fuel : Nat} {cs : List BuildCall} {h h' : Heap} {p : Ptr}
    {own pkg text : GoString} {others : List Declared} {Ms : List DeclMeaning} {f' : GoFile} {es : List FileElem}
    (hb : build cs {} = .ok h) (hs : SaysElements cs p pkg es)
    (hd : SaysFile (packageScope own (Declared.names (others ++ declaredBy Ms))) cs p pkg Ms)
    (hp : Proper realName own (Declared.names (others ++ declaredBy Ms) ++ predeclaredNames ++ [b! "init"]) cs)
    (hr : renderFile env fuel p h = (.ok text, h')) (hf' : h'.files p = some f') (hne : [] ∉ f'.imports.importedPaths) :
    ∃ (head : GoString) (elems : List GoString), text = head ++ elems.flatMap (b! "\n" ++ ·) ∧ elems.length = es.length ∧
      ∀ (k : Nat) q c line ms last, es[k]? = some (.types q) → SaysMembers cs (.types q) c line ms last →
        ∃ doc, CommentBlock c doc ∧ ∃ items : List (GoString × GoString), List.Forall₂ (fun m x => CommentBlock m x.1) ms items ∧
          elems[k]? = some (doc ++ line ++ b! "\n" ++ items.flatMap (fun x => x.1 ++ x.2) ++ last ++ b! "\n") ∧
          ∀ (j : Nat) m x, ms[j]? = some m → items[j]? = some x →
            docAbove (head ++ (elems.take k).flatMap (b! "\n" ++ ·) ++ b! "\n" ++ doc ++ line ++ b! "\n"
              ++ (items.take j).flatMap (fun x => x.1 ++ x.2) ++ x.1) = docLines m := by
  obtain ⟨head, elems, h1, h2, h3⟩ := C78_members hb hs hr
  refine ⟨head, elems, h1, h2, fun k q c line ms last hk hm => ?_⟩
  obtain ⟨doc, hdoc, items, k1, k2, k3, k4⟩ := h3 k _ c line ms last hk hm
  refine ⟨doc, hdoc, items, k1, k2, k4 ?_⟩
  obtain ⟨f, hf⟩ := hd.said hb hp.order
  have g := hf.asked hp hb
  have hes : f.elements = es := by
    obtain ⟨f1, e1, e2⟩ := hs.at hb
    rw [hf.file] at e1; cases e1
    exact e2
  obtain ⟨f0, f1, m1, m2, m3, m4, m5⟩ := qualifyFile_settled (qualifyFile_of_renderFile hr)
  rw [hf.file] at m1
  rw [hf'] at m2
  obtain rfl := Option.some.inj m1
  obtain rfl := Option.some.inj m2
  have hn : NoCopyImported h f'.imports := .inr hne
  obtain ⟨inv', htn⟩ := g.truthful.after hn m5
  have r : Readable f'.imports realName := ⟨inv', htn, (m5.ident g.nameable.state hn.get).names⟩
  have hown : f'.imports.pkgPath = own := m5.ext.own.trans g.path
  have he : f'.elements = f.elements := by rw [m3]
  have hmem : FileElem.types q ∈ f.elements := by rw [hes]; exact List.mem_of_getElem? hk
  obtain ⟨M, -, hM⟩ := forall₂_mem_left g.intends hmem
  obtain ⟨d, hd, -⟩ := elem_declares (env := env) (decls := Declared.names (others ++ declaredBy Ms)) r m5
    (by rw [hown]; exact hM) .types fun pk hw => (m4 _ (by rw [he]; exact hmem)).written hw
  cases hd with
  | type e1 _ _ e2 =>
    refine k3 _ _ rfl e1 fun t ht => ?_
    obtain ⟨T, -, hT⟩ := forall₂_mem_left e2 ht
    exact ⟨T, hT.stands⟩
  | types e1 _ e2 =>
    refine k3 _ _ rfl e1 fun t ht => ?_
    obtain ⟨T, -, hT⟩ := forall₂_mem_left e2 ht
    exact ⟨T, hT.stands⟩

/-! ### An example -/

/-- A struct in a struct, with comments for the fields. -/
def exNoted : List BuildCall :=
  [.newFile (b! "item.go") (b! "x/shop") (b! "shop"), .newField (b! "Size") (.name exBigInt), .setComment (.field 1) (b! "In cm."),
   .newStructTypeSpec [] [1], .newField (b! "Box") (.spec 2), .setComment (.field 3) (b! "It comes in one."),
   .newField (b! "Notes") (.name (.slice (.basic .string))), .setComment (.field 4) (b! "More to know.\nOr none."),
   .newStructTypeSpec (b! "Item") [3, 4], .addType 0 5]

/-- What it says. -/
def exNotedSays : List DeclMeaning :=
  [.types [(b! "Item", false, .struct [.mk (some (b! "Box")) (.struct [.mk (some (b! "Size")) exBigIntMeaning none]) none,
     .mk (some (b! "Notes")) (.slice (.name (.builtin (b! "string")))) none])]]

/-- What is written. -/
def exNotedText : GoString := b! "package shop

import \"math/big\"

type Item  struct {
// It comes in one.
Box  struct {
// In cm.
Size *big.Int
}

// More to know.
// Or none.
Notes []string
}
"

example : ((build exNoted {}).bind fun h => (renderFile exEnv 3 0 h).1) = .ok exNotedText := by decide +kernel

theorem exNoted_declared : declaredBy exNotedSays = [.name (b! "Item")] := by decide +kernel

theorem exNoted_says : SaysFile (packageScope (b! "x/shop") [b! "Item"]) exNoted 0 (b! "shop") exNotedSays := by
  obtain ⟨g1, m1, k1⟩ := Made.at (cs := exNoted) 1 rfl (k := 1) (by decide +kernel)
  obtain ⟨g2, m2, k2⟩ := Made.at (cs := exNoted) 3 rfl (k := 2) (by decide +kernel)
  obtain ⟨g3, m3, k3⟩ := Made.at (cs := exNoted) 4 rfl (k := 3) (by decide +kernel)
  obtain ⟨g4, m4, k4⟩ := Made.at (cs := exNoted) 6 rfl (k := 4) (by decide +kernel)
  obtain ⟨g5, m5, k5⟩ := Made.at (cs := exNoted) 8 rfl (k := 5) (by decide +kernel)
  obtain ⟨g6, m6, k6⟩ := Made.at (cs := exNoted) 9 rfl (k := 6) (by decide +kernel)
  have big : exBigInt.Declarable (packageScope (b! "x/shop") [b! "Item"]) := ⟨by decide, by decide, by decide, by constructor <;> decide⟩
  have strings : (TypeName.slice (.basic .string)).Declarable (packageScope (b! "x/shop") [b! "Item"]) :=
    ⟨by decide, by decide, by decide, by constructor <;> decide⟩
  have f1 := SaysField.field m1 rfl (by rw [k1]; exact ⟨big, by decide, by decide⟩)
  rw [k1] at f1
  have t2 := SaysSpec.struct m2 (.cons f1 .nil)
  rw [k2] at t2
  have f3 := SaysField.unnamed m3 (by rw [k3]; decide +kernel) (by decide) t2
  rw [k3] at f3
  have f4 := SaysField.field m4 rfl (by rw [k4]; exact ⟨strings, by decide, by decide⟩)
  rw [k4] at f4
  have t5 := (⟨by decide, .struct m5 (.cons f3 (.cons f4 .nil))⟩ : SaysType _ _ _ (_, _, _))
  rw [k5] at t5
  have d6 := SaysDecl.type m6 (by rw [k6]; exact .cons t5 .nil)
  rw [k6] at d6
  obtain ⟨g', h1, h2⟩ : ∃ g', (BuildCall.newFile (b! "item.go") (b! "x/shop") (b! "shop")).exec {} = .ok g' ∧
      ((steps (exNoted.drop 1) g').filterMap (added? 0)) = [.types 6] := ⟨_, rfl, by decide +kernel⟩
  have m0 : Made exNoted (.newFile (b! "item.go") (b! "x/shop") (b! "shop")) {} (exNoted.drop 1) := ⟨[], rfl, rfl⟩
  refine SaysFile.file (sc := packageScope (b! "x/shop") [b! "Item"]) m0 h1 (Ms := exNotedSays) ?_
  have h3 : List.Forall₂ (SaysDecl (packageScope (b! "x/shop") [b! "Item"]) exNoted) [.types 6] exNotedSays := .cons d6 .nil
  rw [← h2] at h3
  exact h3

theorem exNoted_proper : Proper (fun _ => b! "big") (b! "x/shop") ([b! "Item"] ++ predeclaredNames ++ [b! "init"]) exNoted := by
  have splitTags : ∀ x ∈ splits exNoted, ∀ q tag, x.2.1 ≠ .setTag q tag := by simp [exNoted, splits]
  have splitSigs : ∀ x ∈ splits exNoted, ∀ q c, x.2.1 ≠ .methodSig q c := by simp [exNoted, splits]
  refine ⟨?_, ⟨?_, ?_⟩, ?_⟩
  · intro c hc pk hpk
    have h1 : ∀ pk ∈ exNoted.flatMap BuildCall.given, pk = ⟨b! "x/shop", b! "shop"⟩ ∨ pk = ⟨b! "math/big", b! "big"⟩ := by decide
    rcases h1 pk (List.mem_flatMap.2 ⟨c, hc, hpk⟩) with rfl | rfl
    · exact .inr (.inl rfl)
    · exact .inr (.inr ⟨.inr rfl, by decide, candidate_prefix (by decide)⟩)
  · intro pre q tag post he
    exact absurd rfl (splitTags (pre, .setTag q tag, post) (he ▸ mem_splits) q tag)
  · intro pre q c post he
    exact absurd rfl (splitSigs (pre, .methodSig q c, post) (he ▸ mem_splits) q c)
  · intro c hc a ha
    have h1 : ∀ c ∈ exNoted, c.args = [] := by simp [exNoted, BuildCall.args]
    rw [h1 c hc] at ha
    cases ha

theorem exNoted_elements : SaysElements exNoted 0 (b! "shop") [.types 6] := by
  obtain ⟨g', h1, h2⟩ : ∃ g', (BuildCall.newFile (b! "item.go") (b! "x/shop") (b! "shop")).exec {} = .ok g' ∧
      ((steps (exNoted.drop 1) g').filterMap (added? 0)) = [.types 6] := ⟨_, rfl, by decide +kernel⟩
  rw [← h2]
  exact .file (g := {}) (post := exNoted.drop 1) ⟨[], rfl, rfl⟩ h1

theorem exNoted_fields : SaysMembers exNoted (.types 6) [] (b! "type Item  struct {") [b! "It comes in one.", b! "More to know.\nOr none."]
    (b! "}") := by
  obtain ⟨g, m, k⟩ := Made.at (cs := exNoted) 9 rfl (k := 6) (by decide +kernel)
  obtain ⟨g', m', k'⟩ := Made.at (cs := exNoted) 8 rfl (k := 5) (by decide +kernel)
  have h1 := DeclaresTypes.added m
  rw [k] at h1
  have h2 := SaysMembers.struct (n := b! "Item") (fs := [3, 4]) (p := 6) (g := g') (by rw [k']; exact h1) (by decide +kernel) m' (by decide)
  rw [k'] at h2
  exact h2

/-- In whatever environment the file is written, the second field has its comment directly above it. -/
example {env : Env} {fuel : Nat} {h h' : Heap} {text : GoString} {f' : GoFile} (hb : build exNoted {} = .ok h)
    (hr : renderFile env fuel 0 h = (.ok text, h')) (hf' : h'.files 0 = some f') (hne : [] ∉ f'.imports.importedPaths) :
    ∃ pre post, text = pre ++ post ∧ docAbove pre = [b! "// More to know.", b! "// Or none."] := by
  have e : Declared.names ([] ++ declaredBy exNotedSays) = [b! "Item"] := by rw [exNoted_declared]; rfl
  obtain ⟨head, elems, h1, h2, h3⟩ := C78_type_members (others := []) (Ms := exNotedSays) (own := b! "x/shop")
    (realName := fun _ => b! "big") hb exNoted_elements
    (by rw [e]; exact exNoted_says) (by rw [e]; exact exNoted_proper) hr hf' hne
  obtain ⟨doc, hd, items, hi, h4, h5⟩ := h3 0 6 _ _ _ _ rfl exNoted_fields
  match items, hi with
  | [x, y], _ =>
    have := h5 1 _ y rfl rfl
    rw [show docLines (b! "More to know.\nOr none.") = [b! "// More to know.", b! "// Or none."] by decide] at this
    match elems, h4 with
    | e :: es, h4 =>
      refine ⟨_, y.2 ++ b! "}\n" ++ es.flatMap (b! "\n" ++ ·), ?_, this⟩
      cases h4
      rw [h1]
      simp

end Gopoet
