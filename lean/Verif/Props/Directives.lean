import Verif.Spec.Directives
import Verif.Props.Decls
import Mathlib.Tactic.ByContra
/-!
# C75: a comment is a comment
-/

namespace Gopoet

theorem splitOn_commentLines {ls : List GoString} (h : ∀ l ∈ ls, newline ∉ l) (s : GoString) :
    splitOn newline (ls.flatMap (fun line => b! "// " ++ line ++ b! "\n") ++ s)
      = ls.map (b! "// " ++ ·) ++ splitOn newline s := by
  induction ls with
  | nil => rfl
  | cons l ls ih =>
    have e : (l :: ls).flatMap (fun line => b! "// " ++ line ++ b! "\n") ++ s
        = (b! "// " ++ l) ++ newline :: (ls.flatMap (fun line => b! "// " ++ line ++ b! "\n") ++ s) := by
      simp [List.flatMap_cons, newline]
    rw [e, splitOn_append, ih fun x hx => h x (by simp [hx]), splitOn_of_not_mem]
    · rfl
    · have := h l (by simp)
      simp [newline] at this ⊢
      exact this

theorem infix_of_mem_splitOn {sep : UInt8} {s l : GoString} (h : l ∈ splitOn sep s) : l <:+: s := by
  induction s generalizing l with
  | nil =>
    simp only [splitOn, List.mem_singleton] at h
    rw [h]
    exact List.infix_refl _
  | cons c s ih =>
    by_cases hc : c = sep
    · simp only [splitOn, if_pos hc, List.mem_cons] at h
      rcases h with rfl | h
      · exact List.nil_infix
      · exact (ih h).trans (List.suffix_cons c s).isInfix
    · obtain ⟨p, ps, h1, h2⟩ := splitOn_cons_ne hc s
      rw [h2] at h
      simp only [List.mem_cons] at h
      rcases h with rfl | h
      · have hp : p <+: s := by
          have h3 := joinWith_splitOn sep s
          rw [h1] at h3
          cases ps with
          | nil => rw [← h3]; exact List.prefix_refl _
          | cons q qs => rw [← h3, joinWith_cons (by simp), List.append_assoc]; exact List.prefix_append _ _
        exact (List.cons_prefix_cons.2 ⟨rfl, hp⟩).isInfix
      · exact (ih (by rw [h1]; simp [h])).trans (List.suffix_cons c s).isInfix

theorem splitOn_writeComment (c s : GoString) :
    splitOn newline (writeComment c ++ s) = (commentLines c).map (b! "// " ++ ·) ++ splitOn newline s := by
  unfold writeComment commentLines
  by_cases h : c = []
  · simp [h]
  · rw [if_pos h, if_neg h, splitOn_commentLines (not_mem_splitOn _ _)]

/-- C75: no line of a comment is a directive. -/
theorem C75_no_directives (c : GoString) : ∀ l ∈ splitOn newline (writeComment c), isDirective l = false := by
  intro l hl
  have := splitOn_writeComment c []
  rw [List.append_nil] at this
  rw [this] at hl
  simp only [List.mem_append, List.mem_map, splitOn, List.mem_singleton] at hl
  rcases hl with ⟨x, _, rfl⟩ | rfl
  · rfl
  · rfl

theorem trim_comment {trim} (ht : TrimsSpace trim) (l : GoString) :
    ∃ t, trim (b! "// " ++ l) = b! "//" ++ t ∧ t <+: b! " " ++ l := by
  obtain ⟨⟨t, h1⟩, h2⟩ := ht.keeps 47 47 (32 :: l) (by decide) (by decide)
  refine ⟨t, h1.symm, ?_⟩
  rw [← h1] at h2
  simpa using h2

theorem leadingLines_text {trim} (ht : TrimsSpace trim) {env : Env} {h : Heap} {fuel : Nat} {f : GoFile} {text : GoString}
    (hr : f.text env h fuel = .ok text) :
    leadingLines trim text = (commentLines f.fileComment).map (fun l => trim (b! "// " ++ l))
      ++ (if f.fileComment = [] then [] else [[]]) ++ (commentLines f.packageComment).map (fun l => trim (b! "// " ++ l)) := by
  obtain ⟨body, -, h2⟩ := bind_eq_ok hr
  cases h2
  obtain ⟨rest, hrest⟩ : ∃ rest, f.packageClause env.isPrint = b! "package " ++ rest := by
    unfold GoFile.packageClause
    split
    · exact ⟨f.packageName ++ b! " // import " ++ quote env.isPrint f.canonicalImportPath ++ b! "\n", by simp⟩
    · exact ⟨f.packageName ++ b! "\n", by simp⟩
  generalize hX : rest ++ b! "\n" ++ (f.imports.importSpecs.map (ImportSpec.statement env.isPrint)).flatten ++ body = X
  have e : writeComment f.fileComment ++ (if f.fileComment ≠ [] then b! "\n" else [])
      ++ writeComment f.packageComment ++ f.packageClause env.isPrint ++ b! "\n"
      ++ (f.imports.importSpecs.map (ImportSpec.statement env.isPrint)).flatten ++ body
      = writeComment f.fileComment ++ ((if f.fileComment ≠ [] then b! "\n" else [])
        ++ (writeComment f.packageComment ++ (b! "package " ++ X))) := by
    rw [hrest, ← hX]
    simp only [List.append_assoc]
  obtain ⟨y, ys, hy⟩ : ∃ y ys, splitOn newline (b! "package " ++ X) = (b! "pa" ++ y) :: ys := by
    obtain ⟨p2, q2, h3, h4⟩ := splitOn_cons_ne (sep := newline) (c := 97) (by decide) (b! "ckage " ++ X)
    obtain ⟨p1, q1, h5, h6⟩ := splitOn_cons_ne (sep := newline) (c := 112) (by decide) (97 :: (b! "ckage " ++ X))
    rw [h4] at h5
    cases h5
    exact ⟨_, _, h6⟩
  have hp : ((decide (trim (b! "pa" ++ y) = []) || (b! "//").isPrefixOf (trim (b! "pa" ++ y)))) = false := by
    obtain ⟨⟨t, h1⟩, -⟩ := ht.keeps 112 97 y (by decide) (by decide)
    show (decide (trim (112 :: 97 :: y) = []) || (b! "//").isPrefixOf (trim (112 :: 97 :: y))) = false
    rw [← h1]
    rfl
  have hc : ∀ (l : GoString), (decide (trim (b! "// " ++ l) = []) || (b! "//").isPrefixOf (trim (b! "// " ++ l))) = true := by
    intro l
    obtain ⟨t, h1, -⟩ := trim_comment ht l
    rw [h1]
    simp
  have key : ∀ (A : List GoString), (∀ a ∈ A, (decide (a = []) || (b! "//").isPrefixOf a) = true) → ∀ B : List GoString,
      (A ++ B).takeWhile (fun l => decide (l = []) || (b! "//").isPrefixOf l)
        = A ++ B.takeWhile (fun l => decide (l = []) || (b! "//").isPrefixOf l) := fun A hA B =>
    List.takeWhile_append_of_pos hA
  have hm : ∀ (c : GoString), ∀ a ∈ (commentLines c).map (fun l => trim (b! "// " ++ l)),
      (decide (a = []) || (b! "//").isPrefixOf a) = true := by
    intro c a ha
    obtain ⟨l, -, rfl⟩ := List.mem_map.1 ha
    exact hc l
  unfold leadingLines
  rw [e, splitOn_writeComment]
  by_cases h0 : f.fileComment = []
  · simp only [h0, ne_eq, not_true_eq_false, if_false, if_true, List.nil_append]
    rw [splitOn_writeComment, hy]
    simp only [List.map_append, List.map_map, List.map_cons, Function.comp_def]
    rw [key _ (hm _), key _ (hm _), List.takeWhile_cons_of_neg (by rw [hp]; simp)]
    simp
  · simp only [h0, ne_eq, not_false_eq_true, if_true, if_false]
    rw [show b! "\n" ++ (writeComment f.packageComment ++ (b! "package " ++ X))
      = [] ++ newline :: (writeComment f.packageComment ++ (b! "package " ++ X)) from rfl, splitOn_append, splitOn_writeComment, hy]
    simp only [List.map_append, List.map_map, List.map_cons, Function.comp_def]
    rw [key _ (hm _), show (splitOn newline []).map trim = [[]] by simp [splitOn, ht.blank], key [[]] (by simp), key _ (hm _),
      List.takeWhile_cons_of_neg (by rw [hp]; simp)]
    simp

/-- C75: the build constraints of a file, exactly: none of the new form, and of the old form those that are lines of the
file comment. -/
theorem C75_constraints_partial {trim} (ht : TrimsSpace trim) {env : Env} {fuel : Nat} {p : Ptr} {h h' : Heap} {f : GoFile}
    {text : GoString} (hf : h.files p = some f) (hr : renderFile env fuel p h = (.ok text, h')) :
    goBuildLines trim text = [] ∧
    plusBuildLines trim text
      = ((commentLines f.fileComment).map fun l => trim (b! "// " ++ l)).filter (isPlusBuild trim) := by
  obtain ⟨f0, i, h1, -, -, h4⟩ := renderFile_ok hr
  rw [hf] at h1
  cases h1
  have hl := leadingLines_text ht h4
  simp only at hl
  constructor
  · unfold goBuildLines
    rw [hl, List.filter_eq_nil_iff]
    intro a ha
    have hg : ∀ l, isGoBuild trim (trim (b! "// " ++ l)) = false := by
      intro l
      obtain ⟨t, h5, h6⟩ := trim_comment ht l
      rw [h5]
      cases t with
      | nil => rfl
      | cons x t =>
        obtain ⟨u, h7⟩ := h6
        simp only [List.cons_append, List.nil_append, List.cons.injEq] at h7
        rw [h7.1]
        rfl
    simp only [List.mem_append, List.mem_map] at ha
    rcases ha with (⟨l, -, rfl⟩ | ha) | ⟨l, -, rfl⟩
    · rw [hg l]; simp
    · split at ha
      · cases ha
      · rw [List.mem_singleton.1 ha]
        simp [isGoBuild]
    · rw [hg l]; simp
  · unfold plusBuildLines
    have hne : ∀ (c : GoString), ∀ a ∈ ((commentLines c).map (fun l => trim (b! "// " ++ l))).reverse, decide (a ≠ []) = true := by
      intro c a ha
      simp only [List.mem_reverse, List.mem_map] at ha
      obtain ⟨l, -, rfl⟩ := ha
      obtain ⟨t, h5, -⟩ := trim_comment ht l
      rw [h5]
      simp
    rw [hl, List.reverse_append, List.dropWhile_append_of_pos (hne _), List.reverse_append]
    by_cases h0 : f.fileComment = []
    · simp [h0, commentLines]
    · simp only [h0, if_false]
      simp [isPlusBuild]

/-- C75: so a file has no build constraint exactly if none of the lines of its file comment is one. Missing from the
full property: the other files. -/
theorem C75_unconstrained_iff_partial {trim} (ht : TrimsSpace trim) {env : Env} {fuel : Nat} {p : Ptr} {h h' : Heap} {f : GoFile}
    {text : GoString} (hf : h.files p = some f) (hr : renderFile env fuel p h = (.ok text, h')) :
    (goBuildLines trim text = [] ∧ plusBuildLines trim text = []) ↔
      ∀ l ∈ commentLines f.fileComment, isPlusBuild trim (trim (b! "// " ++ l)) = false := by
  obtain ⟨h1, h2⟩ := C75_constraints_partial ht hf hr
  rw [h1, h2, List.filter_eq_nil_iff]
  simp

theorem isPlusBuild_infix {trim} (ht : TrimsSpace trim) {l : GoString} (h : isPlusBuild trim (trim (b! "// " ++ l)) = true) :
    b! "+build" <:+: l := by
  obtain ⟨t, h1, h2⟩ := trim_comment ht l
  rw [h1] at h
  replace h : ((b! "+build").isPrefixOf (trim t) && endsWord trim ((trim t).drop 6)) = true := h
  rw [Bool.and_eq_true] at h
  have h3 : b! "+build" <:+: t := (List.isPrefixOf_iff_prefix.1 h.1).isInfix.trans (ht.inside t)
  have h4 : b! "+build" <:+: b! " " ++ l := h3.trans h2.isInfix
  obtain ⟨a, b, e⟩ := h4
  cases a with
  | nil => simp at e
  | cons x a =>
    simp only [List.cons_append, List.nil_append, List.cons.injEq] at e
    exact ⟨a, b, e.2⟩

/-- C75: in particular, there is none if the file comment does not contain the text `+build`. -/
theorem C75_unconstrained_partial {trim} (ht : TrimsSpace trim) {env : Env} {fuel : Nat} {p : Ptr} {h h' : Heap} {f : GoFile}
    {text : GoString} (hf : h.files p = some f) (hr : renderFile env fuel p h = (.ok text, h'))
    (hn : ¬ b! "+build" <:+: f.fileComment) : goBuildLines trim text = [] ∧ plusBuildLines trim text = [] := by
  rw [C75_unconstrained_iff_partial ht hf hr]
  intro l hl
  by_contra h0
  refine hn ((isPlusBuild_infix ht (by simpa using h0)).trans ?_)
  unfold commentLines at hl
  split at hl
  · cases hl
  · exact infix_of_mem_splitOn hl

theorem not_space {c : UInt8} (hc : 33 ≤ c ∧ c ≤ 126) : (c == 32 || (decide (9 ≤ c) && decide (c ≤ 13))) = false := by
  have h1 : 33 ≤ c.toNat := UInt8.le_iff_toNat_le.1 hc.1
  have h2 : ¬ c = 32 := by rintro rfl; simp at h1
  have h3 : ¬ c ≤ 13 := fun h => by
    have := UInt8.le_iff_toNat_le.1 h
    simp at this
    omega
  simp [h2, h3]

theorem trimAscii_keeps (c : UInt8) (s : GoString) (hc : 33 ≤ c ∧ c ≤ 126) : trimAscii (c :: s) <+: c :: s := by
  have h0 := not_space hc
  unfold trimAscii
  rw [List.dropWhile_cons_of_neg (by simp [h0])]
  have := List.dropWhile_suffix (l := (c :: s).reverse) (fun c : UInt8 => c == 32 || (9 ≤ c && c ≤ 13))
  simpa using List.reverse_prefix.2 this

/-- There is such a function. -/
theorem trimsSpace_trimAscii : TrimsSpace trimAscii where
  blank := rfl
  inside s := by
    unfold trimAscii
    refine List.IsInfix.trans ?_ (List.dropWhile_suffix (fun c : UInt8 => c == 32 || (9 ≤ c && c ≤ 13))).isInfix
    have := List.dropWhile_suffix (l := (s.dropWhile (fun c => c == 32 || (9 ≤ c && c ≤ 13))).reverse)
      (fun c : UInt8 => c == 32 || (9 ≤ c && c ≤ 13))
    simpa using (List.reverse_prefix.2 this).isInfix
  keeps c d s hc hd := by
    have h1 := trimAscii_keeps c (d :: s) hc
    refine ⟨?_, h1⟩
    unfold trimAscii
    rw [List.dropWhile_cons_of_neg (by simp [not_space hc])]
    simp only [List.reverse_cons, List.append_assoc, List.cons_append, List.nil_append]
    rw [List.dropWhile_append]
    split
    · rw [List.dropWhile_cons_of_neg (by simp [not_space hd])]
      simp
    · simp

/-- Full statement: no comment is a directive or a build constraint. -/
def C75_full : Prop := ∀ (trim : GoString → GoString), TrimsSpace trim → ∀ (env : Env) (fuel : Nat) (p : Ptr) (h h' : Heap)
  (text : GoString), renderFile env fuel p h = (.ok text, h') →
    goBuildLines trim text = [] ∧ plusBuildLines trim text = []

/-- A file whose comment happens to start with `+build`. -/
def exConstraint (c : GoString) : Heap where
  files p := if p = 0 then some { name := b! "p.go", packageName := b! "p", imports := newImportsFor (b! "x/p"), fileComment := c,
                                  packageComment := b! "+build never" } else none

/-- C75 fails: a file comment with the line `+build ignore` keeps the file from being built. -/
theorem C75_full_fails : ¬ C75_full := by
  intro hC
  have h1 : (renderFile exEnv 1 0 (exConstraint (b! "+build ignore"))).1 = .ok _ := rfl
  have h2 := (hC trimAscii trimsSpace_trimAscii exEnv 1 0 (exConstraint (b! "+build ignore")) _ _ (Prod.ext h1 rfl)).2
  revert h2
  decide +kernel

example : (renderFile exEnv 1 0 (exConstraint (b! "+build ignore\nok"))).1
    = .ok (b! "// +build ignore\n// ok\n\n// +build never\npackage p\n\n") := by decide +kernel

example : plusBuildLines trimAscii (b! "// +build ignore\n// ok\n\n// +build never\npackage p\n\n") = [b! "// +build ignore"] := by
  decide +kernel

example : isDirective (b! "//go:noinline") = true ∧ isDirective (b! "//line x.go:1") = true ∧ isDirective (b! "// go:noinline") = false := by
  decide +kernel

example : goBuildLines trimAscii (b! "//go:build ignore\npackage p\n") = [b! "//go:build ignore"] := by decide +kernel

end Gopoet
