import Verif.Props.ProgramExample
/-!
# Programs with type specs inside of others (C78)

Type specs without name can be types of fields, in any depth; they are written in place. New type specs can be made from them. That C78 holds for
programs that use them is shown with an example here.
-/

namespace Gopoet
open Imports

/-- A struct in a struct, and an interface in it; the struct inside is declared on its own, too. -/
def exNest : List BuildCall :=
  [.newFile (b! "item.go") (b! "x/shop") (b! "shop"), .newField (b! "Size") (.name exBigInt), .newStructTypeSpec [] [1],
   .newField (b! "Box") (.spec 2), .newInterfaceMethod (b! "Close"), .newInterfaceTypeSpec [] [.method 4],
   .newField (b! "Door") (.spec 5), .newTypeSpec [] (.name (.slice (.basic .string))), .newField (b! "Notes") (.spec 7),
   .newStructTypeSpec (b! "Item") [3, 6, 8], .addType 0 9,
   .newTypeAlias (b! "Shape") (.spec 2), .addType 0 11]

/-- What it says. -/
def exNestSays : List DeclMeaning :=
  [.types [(b! "Item", false, .struct [.mk (some (b! "Box")) (.struct [.mk (some (b! "Size")) exBigIntMeaning none]) none,
     .mk (some (b! "Door")) (.iface [.method (b! "Close") (.mk [] false [])]) none,
     .mk (some (b! "Notes")) (.slice (.name (.builtin (b! "string")))) none])],
   .types [(b! "Shape", true, .struct [.mk (some (b! "Size")) exBigIntMeaning none])]]

/-- What is written. -/
def exNestText : GoString := b! "package shop

import \"math/big\"

type Item  struct {
Box  struct {
Size *big.Int
}

Door  interface {
Close()
}

Notes  []string

}

type Shape =  struct {
Size *big.Int
}
"

example : ((build exNest {}).bind fun h => (renderFile exEnv 3 0 h).1) = .ok exNestText := by decide +kernel

theorem exNest_declared : declaredBy exNestSays = [.name (b! "Item"), .name (b! "Shape")] := by decide +kernel

/-- The names in the package. -/
def exNestScope : FileScope := packageScope (b! "x/shop") [b! "Item", b! "Shape"]

theorem exNest_says : SaysFile exNestScope exNest 0 (b! "shop") exNestSays := by
  obtain ⟨g1, m1, k1⟩ := Made.at (cs := exNest) 1 rfl (k := 1) (by decide +kernel)
  obtain ⟨g2, m2, k2⟩ := Made.at (cs := exNest) 2 rfl (k := 2) (by decide +kernel)
  obtain ⟨g3, m3, k3⟩ := Made.at (cs := exNest) 3 rfl (k := 3) (by decide +kernel)
  obtain ⟨g4, m4, k4⟩ := Made.at (cs := exNest) 4 rfl (k := 4) (by decide +kernel)
  obtain ⟨g5, m5, k5⟩ := Made.at (cs := exNest) 5 rfl (k := 5) (by decide +kernel)
  obtain ⟨g6, m6, k6⟩ := Made.at (cs := exNest) 6 rfl (k := 6) (by decide +kernel)
  obtain ⟨g7, m7, k7⟩ := Made.at (cs := exNest) 7 rfl (k := 7) (by decide +kernel)
  obtain ⟨g8, m8, k8⟩ := Made.at (cs := exNest) 8 rfl (k := 8) (by decide +kernel)
  obtain ⟨g9, m9, k9⟩ := Made.at (cs := exNest) 9 rfl (k := 9) (by decide +kernel)
  obtain ⟨g10, m10, k10⟩ := Made.at (cs := exNest) 10 rfl (k := 10) (by decide +kernel)
  obtain ⟨g11, m11, k11⟩ := Made.at (cs := exNest) 11 rfl (k := 11) (by decide +kernel)
  obtain ⟨g12, m12, k12⟩ := Made.at (cs := exNest) 12 rfl (k := 12) (by decide +kernel)
  have big : exBigInt.Declarable exNestScope := ⟨by decide, by decide, by decide, by constructor <;> decide⟩
  have strings : (TypeName.slice (.basic .string)).Declarable exNestScope := ⟨by decide, by decide, by decide, by constructor <;> decide⟩
  have f1 := SaysField.field (sc := exNestScope) m1 rfl (by rw [k1]; exact ⟨big, by decide, by decide⟩)
  rw [k1] at f1
  have t2 := SaysSpec.struct m2 (.cons f1 .nil)
  rw [k2] at t2
  have f3 := SaysField.unnamed m3 (by rw [k3]; decide +kernel) (by decide) t2
  rw [k3] at f3
  have e4 := SaysElem.method (sc := exNestScope) m4 (by decide) (by rw [k4]; exact ⟨by decide, by decide, by decide, by constructor <;> decide⟩)
  rw [k4] at e4
  have t5 := SaysSpec.iface m5 (.cons e4 .nil)
  rw [k5] at t5
  have f6 := SaysField.unnamed m6 (by rw [k6]; decide +kernel) (by decide) t5
  rw [k6] at f6
  have t7 := SaysSpec.type m7 strings
  rw [k7] at t7
  have f8 := SaysField.unnamed m8 (by rw [k8]; decide +kernel) (by decide) t7
  rw [k8] at f8
  have t9 := (⟨by decide, .struct m9 (.cons f3 (.cons f6 (.cons f8 .nil)))⟩ : SaysType _ _ _ (_, _, _))
  rw [k9] at t9
  have d10 := SaysDecl.type m10 (by rw [k10]; exact .cons t9 .nil)
  rw [k10] at d10
  have t11 := (⟨by decide, .copyAlias m11 t2⟩ : SaysType _ _ _ (_, _, _))
  rw [k11] at t11
  have d12 := SaysDecl.type m12 (by rw [k12]; exact .cons t11 .nil)
  rw [k12] at d12
  obtain ⟨g', h1, h2⟩ : ∃ g', (BuildCall.newFile (b! "item.go") (b! "x/shop") (b! "shop")).exec {} = .ok g' ∧
      ((steps (exNest.drop 1) g').filterMap (added? 0)) = [.types 10, .types 12] := ⟨_, rfl, by decide +kernel⟩
  have m0 : Made exNest (.newFile (b! "item.go") exNestScope.own (b! "shop")) {} (exNest.drop 1) := ⟨[], rfl, rfl⟩
  refine SaysFile.file m0 h1 (Ms := exNestSays) ?_
  have h3 : List.Forall₂ (SaysDecl exNestScope exNest) [.types 10, .types 12] exNestSays := .cons d10 (.cons d12 .nil)
  rw [← h2] at h3
  exact h3

theorem exNest_proper : Proper (fun _ => b! "big") (b! "x/shop") ([b! "Item", b! "Shape"] ++ predeclaredNames ++ [b! "init"]) exNest := by
  have splitTags : ∀ x ∈ splits exNest, ∀ q tag, x.2.1 ≠ .setTag q tag := by simp [exNest, splits]
  have splitSigs : ∀ x ∈ splits exNest, ∀ q c, x.2.1 ≠ .methodSig q c := by simp [exNest, splits]
  refine ⟨?_, ⟨?_, ?_⟩, ?_⟩
  · intro c hc pk hpk
    have h1 : ∀ pk ∈ exNest.flatMap BuildCall.given, pk = ⟨b! "x/shop", b! "shop"⟩ ∨ pk = ⟨b! "math/big", b! "big"⟩ := by decide
    rcases h1 pk (List.mem_flatMap.2 ⟨c, hc, hpk⟩) with rfl | rfl
    · exact .inr (.inl rfl)
    · exact .inr (.inr ⟨.inr rfl, by decide, candidate_prefix (by decide)⟩)
  · intro pre q tag post he
    exact absurd rfl (splitTags (pre, .setTag q tag, post) (he ▸ mem_splits) q tag)
  · intro pre q c post he
    exact absurd rfl (splitSigs (pre, .methodSig q c, post) (he ▸ mem_splits) q c)
  · intro c hc a ha
    have h1 : ∀ c ∈ exNest, c.args = [] := by simp [exNest, BuildCall.args]
    rw [h1 c hc] at ha
    cases ha

theorem exNest_code {env : Env} {K : KnownTemplates env} {h : Heap} : CodeSays K h (b! "x/shop") exNest := by
  refine ⟨?_, ?_, ?_⟩
  · intro r n g post hm
    obtain ⟨pre, h1, -⟩ := hm
    have h2 : ∀ x ∈ splits exNest, ∀ r n, x.2.1 ≠ .newFunc r n := by simp [exNest, splits]
    exact absurd rfl (h2 _ (h1 ▸ mem_splits) r n)
  · intro p b hm
    simp [exNest] at hm
  · intro p format args g post hm
    obtain ⟨pre, h1, -⟩ := hm
    have h2 : ∀ x ∈ splits exNest, ∀ p format args, x.2.1 ≠ .initWith p format args := by simp [exNest, splits]
    exact absurd rfl (h2 _ (h1 ▸ mem_splits) p format args)

theorem exNest_sensible : Sensible exNest := by
  have noArgs : ∀ c ∈ exNest, c.args = [] := by simp [exNest, BuildCall.args]
  refine ⟨?_, ?_, ?_, ?_, ?_, ?_, ?_, ?_⟩
  · intro c hc
    simp only [exNest, List.mem_cons, List.not_mem_nil, or_false] at hc
    rcases hc with rfl | rfl | rfl | rfl | rfl | rfl | rfl | rfl | rfl | rfl | rfl | rfl | rfl <;> trivial
  · intro c hc a ha
    rw [noArgs c hc] at ha
    cases ha
  · intro r n g post hm
    obtain ⟨pre, h1, -⟩ := hm
    have h2 : ∀ x ∈ splits exNest, ∀ r n, x.2.1 ≠ .newFunc r n := by simp [exNest, splits]
    exact absurd rfl (h2 _ (h1 ▸ mem_splits) r n)
  · intro n g post hm
    obtain ⟨pre, h1, h2⟩ := hm
    have h3 : ∀ x ∈ splits exNest, ∀ n, x.2.1 = .newInterfaceMethod n → x.1 = exNest.take 4 ∧ x.2.2 = exNest.drop 5 := by
      simp [exNest, splits]
    obtain ⟨h4, h5⟩ := h3 _ (h1 ▸ mem_splits) n rfl
    obtain rfl : pre = _ := h4
    obtain rfl : post = _ := h5
    have h6 : ((build (exNest.take 4) {}).bind fun g => .ok (sigBuilt (.method g.next) (exNest.drop 5)).valid) = .ok true := by
      decide +kernel
    rw [h2] at h6
    exact Outcome.ok.inj h6
  · intro c hc v hv
    simp only [exNest, List.mem_cons, List.not_mem_nil, or_false] at hc
    rcases hc with rfl | rfl | rfl | rfl | rfl | rfl | rfl | rfl | rfl | rfl | rfl | rfl | rfl <;> cases hv
  · intro n path name hm
    simp [exNest] at hm
    rw [hm.2.1]
    decide
  · intro c hc pk hpk
    have h1 : ∀ pk ∈ exNest.flatMap BuildCall.given, pk.importPath = [] → pk = ⟨[], []⟩ := by decide
    exact h1 pk (List.mem_flatMap.2 ⟨c, hc, hpk⟩)
  · intro c hc a ha
    rw [noArgs c hc] at ha
    cases ha

/-- C78 (e) for the example: it can be written, and what is written is a Go file with these declarations. -/
theorem exNest_written {env : Env} : ∃ h fuel text h' src, build exNest {} = .ok h ∧
    renderFile env fuel 0 h = (.ok text, h') ∧ parseGoFile text = some src ∧ src.package = b! "shop" ∧
    src.meaning (b! "x/shop") [b! "Item", b! "Shape"] (fun _ => b! "big") = some exNestSays := by
  have hnames : Declared.names ([] ++ declaredBy exNestSays) = [b! "Item", b! "Shape"] := by
    rw [exNest_declared]
    decide
  have hx : ((build exNest {}).bind fun _ => .ok ()) = .ok () := by decide +kernel
  obtain ⟨h, hb, -⟩ := bind_eq_ok hx
  obtain ⟨fuel, text, h', src, h1, h2, h3, -, -, h4, -⟩ := C78_written (env := env) (others := []) hb (by rw [hnames]; exact exNest_says)
    (by rw [hnames]; exact exNest_proper) (exNest_code (K := noTemplates env)) exNest_sensible (by decide) (by intro n hn; cases hn)
    (by rw [exNest_declared]; decide) (by rw [exNest_declared]; decide)
  rw [hnames] at h4
  exact ⟨h, fuel, text, h', src, hb, h1, h2, h3, h4⟩

/-- A field whose type is a named spec. -/
def exNamedInside : List BuildCall := [.newStructTypeSpec (b! "T") [], .newField (b! "F") (.spec 0)]

/-- This is no such program: the field would be written with the name, and its package is not imported (C30). -/
example {sc : FileScope} {G : GoField TypeIdent} {p : Ptr} : ¬ SaysField sc exNamedInside p G := by
  have calls : ∀ {c g post}, Made exNamedInside c g post → c ∈ exNamedInside := by
    rintro c g post ⟨pre, h1, -⟩
    rw [h1]
    simp
  intro hs
  cases hs with
  | field hm => simpa [exNamedInside] using calls hm
  | unnamed _ _ _ hq =>
    cases hq with
    | type hm => simpa [exNamedInside] using calls hm
    | aliasOf hm => simpa [exNamedInside] using calls hm
    | struct hm => simpa [exNamedInside] using calls hm
    | iface hm => simpa [exNamedInside] using calls hm
    | copy hm => simpa [exNamedInside] using calls hm
    | copyAlias hm => simpa [exNamedInside] using calls hm

end Gopoet
