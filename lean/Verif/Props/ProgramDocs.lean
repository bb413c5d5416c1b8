import Verif.Spec.ProgramDocs
import Verif.Proof.ProgramComments
import Verif.Props.Docs
import Verif.Props.ProgramNested
/-!
# What a program writes is documented with the comments that it gave (C78)
-/

namespace Gopoet
open Imports

theorem build_comment : ∀ {cs : List BuildCall} {h h' : Heap}, h.Fresh → build cs h = .ok h' → ∀ o,
    h'.commentOf o = lastOr (h.commentOf o) (cs.filterMap (·.comment? o))
  | [], h, h', _, hb, o => by cases hb; rfl
  | c :: cs, h, h', hf, hb, o => by
    obtain ⟨g, h1, hb⟩ := bind_eq_ok hb
    have hg : g.Fresh := (build_built hf (cs := [c]) (h' := g) (by simp [build, h1, Outcome.bind])).fresh
    rw [build_comment hg hb o, lastOr_cons, BuildCall.exec_comment hf h1]

/-- **C78** The objects that a program has made have the comments that its calls gave them last, also fields, embeds and methods that
were made from a type literal. -/
theorem C78_comments {cs : List BuildCall} {h : Heap} (hb : build cs {} = .ok h) :
    (∀ p v, h.values p = some v → v.comment = givenComment cs (.value p)) ∧
    (∀ p v, h.valueDecls p = some v → v.comment = givenComment cs (.valueDecl p)) ∧
    (∀ p v, h.types p = some v → v.comment = givenComment cs (.type p)) ∧
    (∀ p v, h.typeDecls p = some v → v.comment = givenComment cs (.typeDecl p)) ∧
    (∀ p v, h.fields p = some v → v.comment = givenComment cs (.field p)) ∧
    (∀ p v, h.embeds p = some v → v.comment = givenComment cs (.embed p)) ∧
    (∀ p v, h.methods p = some v → v.comment = givenComment cs (.method p)) ∧
    ∀ p v, h.funcs p = some v → v.comment = givenComment cs (.func p) := by
  have key := build_comment Heap.fresh_empty hb
  refine ⟨?_, ?_, ?_, ?_, ?_, ?_, ?_, ?_⟩
  · intro p v hv
    have := key (.value p)
    rw [Heap.commentOf, hv] at this
    exact this
  · intro p v hv
    have := key (.valueDecl p)
    rw [Heap.commentOf, hv] at this
    exact this
  · intro p v hv
    have := key (.type p)
    rw [Heap.commentOf, hv] at this
    exact this
  · intro p v hv
    have := key (.typeDecl p)
    rw [Heap.commentOf, hv] at this
    exact this
  · intro p v hv
    have := key (.field p)
    rw [Heap.commentOf, hv] at this
    exact this
  · intro p v hv
    have := key (.embed p)
    rw [Heap.commentOf, hv] at this
    exact this
  · intro p v hv
    have := key (.method p)
    rw [Heap.commentOf, hv] at this
    exact this
  · intro p v hv
    have := key (.func p)
    rw [Heap.commentOf, hv] at this
    exact this

theorem declComment_group {own : GoString} {l : List GoString} (h : l.length > 1 ∨ own ≠ []) : declComment own l = own := by
  unfold declComment
  split
  · simp at h
  · rfl

/-- The comment that an element of the file has is the one that was given for it. -/
theorem SaysDoc.commented {cs : List BuildCall} {h : Heap} (hb : build cs {} = .ok h) {e : FileElem} {kw kw' c c' : GoString}
    (hs : SaysDoc cs e kw c) (hc : e.Commented h kw' c') : kw' = kw ∧ c' = c := by
  obtain ⟨kv, kvd, kt, ktd, -, -, -, kf⟩ := C78_comments hb
  have hvals : ∀ p kind specs, h.valueDecls p = some { kind := kind, specs := specs, comment := givenComment cs (.valueDecl p) } →
      FileElem.Commented h (.values p) kw' c' → kw' = (if kind = .const then b! "const " else b! "var ") ∧
        c' = declComment (givenComment cs (.valueDecl p)) (specs.map fun v => givenComment cs (.value v)) := by
    rintro p kind specs hd ⟨d, h1, h2, h3⟩
    rw [hd] at h1; cases h1
    refine ⟨by rw [h2]; cases kind <;> rfl, ?_⟩
    rcases h3 with ⟨h3, rfl⟩ | ⟨h3, s, v, h4, h5, rfl⟩
    · exact (declComment_group (by simpa using h3)).symm
    · dsimp only at h3 h4
      rw [h3, h4, kv s v h5]; rfl
  have htypes : ∀ p specs, h.typeDecls p = some { types := specs, comment := givenComment cs (.typeDecl p) } →
      FileElem.Commented h (.types p) kw' c' → kw' = b! "type " ∧
        c' = declComment (givenComment cs (.typeDecl p)) (specs.map fun v => givenComment cs (.type v)) := by
    rintro p specs hd ⟨d, h1, h2, h3⟩
    rw [hd] at h1; cases h1
    refine ⟨h2, ?_⟩
    rcases h3 with ⟨h3, rfl⟩ | ⟨h3, s, v, h4, h5, rfl⟩
    · exact (declComment_group (by simpa using h3)).symm
    · dsimp only at h3 h4
      rw [h3, h4, kt s v h5]; rfl
  cases hs with
  | @types ts g post hm =>
    obtain ⟨g1, h1, -, -, -, -, h6⟩ := hm.exec hb
    cases h1
    have h7 := h6.typeDecls g.next { types := ts } (upd_same _ _ _)
    exact htypes _ _ (by rw [h7, ← ktd _ _ h7]) hc
  | @type f t g post hm =>
    obtain ⟨g1, h1, -, h3, -, -, h6⟩ := hm.exec hb
    obtain ⟨g', file, m1, m2, m3, m4, m5, rfl⟩ := addElement_parts (Grown.allocTypeDecls h3 { types := [t] }).fresh h1
    have h7 := h6.typeDecls g.next { types := [t] } (by simp only; rw [m4]; exact upd_same _ _ _)
    exact htypes _ _ (by rw [h7, ← ktd _ _ h7]; rfl) hc
  | @values kind vs g post hm =>
    obtain ⟨g1, h1, -, -, -, -, h6⟩ := hm.exec hb
    cases h1
    have h7 := h6.valueDecls g.next { kind := kind, specs := vs } (upd_same _ _ _)
    exact hvals _ _ _ (by rw [h7, ← kvd _ _ h7]) hc
  | @value f kind v g post hm =>
    obtain ⟨g1, h1, -, h3, -, -, h6⟩ := hm.exec hb
    obtain ⟨g', file, m1, m2, m3, m4, m5, rfl⟩ := addElement_parts (Grown.allocValueDecls h3 { kind, specs := [v] }).fresh h1
    have h7 := h6.valueDecls g.next { kind, specs := [v] } (by simp only; rw [m3]; exact upd_same _ _ _)
    exact hvals _ _ _ (by rw [h7, ← kvd _ _ h7]; rfl) hc
  | @func r n g post hm =>
    obtain ⟨f, h1, h2, h3⟩ := hc
    exact ⟨h2, by rw [h3]; exact kf _ _ h1⟩

/-- There are no assignments to a file before it is made. -/
theorem made_fileField {cs : List BuildCall} {h g : Heap} (hb : build cs {} = .ok h) {n own pkg : GoString} {post : List BuildCall}
    (hm : Made cs (.newFile n own pkg) g post) (k : FileField) :
    cs.filterMap (·.fileField? g.next k) = post.filterMap (·.fileField? g.next k) := by
  obtain ⟨pre, rfl, hg⟩ := hm
  rw [List.filterMap_append, List.filterMap_cons_none rfl]
  have : pre.filterMap (·.fileField? g.next k) = [] := by
    rw [List.filterMap_eq_nil_iff]
    intro c hc
    obtain ⟨a, b, rfl⟩ := List.append_of_mem hc
    obtain ⟨g0, h0⟩ := made_prefix hg rfl
    obtain ⟨g1, h1, -, h3, -, h5, h6⟩ := Made.exec hg ⟨a, rfl, h0⟩
    cases c with
    | fileField p k' s =>
      obtain ⟨m, h7, -⟩ := bind_eq_ok h1
      obtain ⟨x, h8, -⟩ := modAt_ok h7
      refine if_neg fun he => ?_
      have := lt_next h3.files h8
      rw [he.1] at this
      exact absurd (Nat.lt_of_lt_of_le this (Nat.le_trans h5 h6.next)) (Nat.lt_irrefl _)
    | _ => rfl
  rw [this, List.nil_append]

/-- An element that is to declare something also has a comment. -/
theorem SaysDecl.hasDoc {sc : FileScope} {cs : List BuildCall} {e : FileElem} {M : DeclMeaning} (hs : SaysDecl sc cs e M) :
    ∃ kw c, SaysDoc cs e kw c := by
  cases hs with
  | types hm _ _ => exact ⟨_, _, .types hm⟩
  | type hm _ => exact ⟨_, _, .type hm⟩
  | values hm _ _ => exact ⟨_, _, .values hm⟩
  | value hm _ => exact ⟨_, _, .value hm⟩
  | func hm _ _ _ => exact ⟨_, _, .func hm⟩

/-- The elements of a file that is to declare something. -/
theorem SaysFile.elements {sc : FileScope} {cs : List BuildCall} {p : Ptr} {pkg : GoString} {Ms : List DeclMeaning}
    (hs : SaysFile sc cs p pkg Ms) : ∃ es, SaysElements cs p pkg es ∧ List.Forall₂ (SaysDecl sc cs) es Ms := by
  cases hs with
  | file hm hg hl => exact ⟨_, .file hm hg, hl⟩

/-- **C78** In the file that a program writes, the package has the comment that was assigned last, directly above the
package clause; and each element has the comment that the calls gave, directly above its keyword. -/
theorem C78_documented {env : Env} {fuel : Nat} {cs : List BuildCall} {h h' : Heap} {p : Ptr} {pkg text : GoString}
    {es : List FileElem} (hb : build cs {} = .ok h) (hs : SaysElements cs p pkg es)
    (hr : renderFile env fuel p h = (.ok text, h')) :
    (∃ pre post, text = pre ++ b! "package " ++ pkg ++ post ∧
      docAbove pre = docLines (lastOr [] (cs.filterMap (·.fileField? p .packageComment))) ∧
      ∀ l ∈ splitOn newline pre, l = [] ∨ isCommentLine l = true) ∧
    ∃ (head : GoString) (elems : List GoString), text = head ++ elems.flatMap (b! "\n" ++ ·) ∧ elems.length = es.length ∧
      ∀ (k : Nat) e kw c, es[k]? = some e → SaysDoc cs e kw c → ∃ doc rest, CommentBlock c doc ∧
        elems[k]? = some (doc ++ kw ++ rest) ∧
        docAbove (head ++ (elems.take k).flatMap (b! "\n" ++ ·) ++ b! "\n" ++ doc) = docLines c := by
  cases hs with
  | @file name own _ g g' post hm hg =>
    obtain ⟨g1, k1, k2, k3, k4, k5, k6⟩ := hm.exec hb
    rw [hg] at k1; cases k1
    obtain ⟨q, h1⟩ := built_ok hg
    obtain ⟨f0, h2, h1⟩ := bind_eq_ok h1
    cases h1
    have hf0 : f0 = { name := name, packageName := pkg, imports := newImportsFor own } := by
      unfold newGoFile at h2
      repeat' split at h2
      all_goals cases h2
      rfl
    obtain ⟨f, es, m1, m2, m3, m4, m5, m6, m7⟩ := k6.files g.next f0 (upd_same _ _ _)
    have hes : f.elements = es := by rw [m6, hf0]; rfl
    rw [← adds_filterMap (steps_fresh k4) m7] at hes
    constructor
    · obtain ⟨pre, rest, h3, h4, h5⟩ := C76_package m1 hr
      refine ⟨pre, rest, by rw [h3, m4, hf0], ?_, h5⟩
      have := m5 .packageComment
      rw [made_fileField hb hm, h4, show f.packageComment = f.get .packageComment from rfl, this, hf0]
      rfl
    · obtain ⟨head, elems, h3, h4, h5⟩ := C76_elements m1 hr
      rw [hes] at h4 h5
      refine ⟨head, elems, h3, h4.length_eq.symm, ?_⟩
      intro k e kw c hk hd
      obtain ⟨kw', c', rest, h6, h7, h8⟩ := h5 k e hk
      obtain ⟨rfl, rfl⟩ := hd.commented hb h6
      exact ⟨_, rest, commentBlock_writeComment _, h7, h8⟩

/-! ### An example -/

/-- A program that gives comments, one of them twice. -/
def exTold : List BuildCall :=
  [.newFile (b! "item.go") (b! "x/shop") (b! "shop"), .fileField 0 .packageComment (b! "Package shop sells."),
   .newField (b! "Size") (.name (.basic .int)), .setComment (.field 1) (b! "In cm."), .newStructTypeSpec (b! "Item") [1],
   .setComment (.type 2) (b! "Old."), .setComment (.type 2) (b! "Item is sold.\nAlways."), .addType 0 2,
   .newValue .const [b! "A"], .setComment (.value 4) (b! "The first."), .newValueDecl .const [4],
   .setComment (.valueDecl 5) (b! "Letters."), .addElement 0 (.values 5),
   .newFunc none (b! "Sell"), .setComment (.func 6) (b! "Sell sells."), .addElement 0 (.func 6)]

/-- What is written. -/
def exToldText : GoString := b! "// Package shop sells.
package shop


// Item is sold.
// Always.
type Item  struct {
// In cm.
Size int
}

// Letters.
const (
// The first.
A
)

// Sell sells.
func Sell() {
}
"

example : ((build exTold {}).bind fun h => (renderFile exEnv 3 0 h).1) = .ok exToldText := by decide +kernel

theorem exTold_elements : SaysElements exTold 0 (b! "shop") [.types 3, .values 5, .func 6] := by
  obtain ⟨g', h1, h2⟩ : ∃ g', (BuildCall.newFile (b! "item.go") (b! "x/shop") (b! "shop")).exec {} = .ok g' ∧
      ((steps (exTold.drop 1) g').filterMap (added? 0)) = [.types 3, .values 5, .func 6] := ⟨_, rfl, by decide +kernel⟩
  rw [← h2]
  exact .file (g := {}) (post := exTold.drop 1) ⟨[], rfl, rfl⟩ h1

theorem exTold_type : SaysDoc exTold (.types 3) (b! "type ") (b! "Item is sold.\nAlways.") := by
  obtain ⟨g, m, k⟩ := Made.at (cs := exTold) 7 rfl (k := 3) (by decide +kernel)
  have := SaysDoc.type m
  rw [k] at this
  exact this

theorem exTold_values : SaysDoc exTold (.values 5) (b! "const ") (b! "Letters.") := by
  obtain ⟨g, m, k⟩ := Made.at (cs := exTold) 10 rfl (k := 5) (by decide +kernel)
  have := SaysDoc.values m
  rw [k] at this
  exact this

theorem exTold_func : SaysDoc exTold (.func 6) (b! "func ") (b! "Sell sells.") := by
  obtain ⟨g, m, k⟩ := Made.at (cs := exTold) 13 rfl (k := 6) (by decide +kernel)
  have := SaysDoc.func m
  rw [k] at this
  exact this

/-- The function is documented with its comment, whatever the environment. -/
example {env : Env} {fuel : Nat} {h h' : Heap} {text : GoString} (hb : build exTold {} = .ok h)
    (hr : renderFile env fuel 0 h = (.ok text, h')) :
    ∃ pre post, text = pre ++ b! "func " ++ post ∧ docAbove pre = [b! "// Sell sells."] := by
  obtain ⟨-, head, elems, h1, h2, h3⟩ := C78_documented hb exTold_elements hr
  obtain ⟨doc, rest, -, h4, h5⟩ := h3 2 _ _ _ rfl exTold_func
  refine ⟨head ++ (elems.take 2).flatMap (b! "\n" ++ ·) ++ b! "\n" ++ doc, rest, ?_, h5⟩
  obtain ⟨x, y, z, rfl⟩ := List.length_eq_three.1 h2
  cases h4
  rw [h1]
  simp

/-- Comments that were given last count, those of a spec only where the declaration has none. -/
example : givenComment exTold (.type 2) = b! "Item is sold.\nAlways." ∧ declComment [] [b! "a"] = b! "a" ∧
    declComment (b! "x") [b! "a"] = b! "x" ∧ declComment [] [b! "a", b! "c"] = [] := by decide +kernel

end Gopoet
