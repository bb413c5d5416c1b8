import Verif.Spec.Docs
import Verif.Props.Directives
import Verif.Props.Independent
import Verif.Props.TypeDecls
import Verif.Proof.FileDecls
/-!
# C76: comments document what they were given for
-/

namespace Gopoet

/-- The text ends with the end of a line. -/
def EndsLine (s : GoString) : Prop := ∃ t, s = t ++ [newline]

theorem EndsLine.append (a : GoString) {b : GoString} (h : EndsLine b) : EndsLine (a ++ b) := by
  obtain ⟨t, rfl⟩ := h
  exact ⟨a ++ t, by simp⟩

theorem endsLine_newline (a : GoString) : EndsLine (a ++ b! "\n") := ⟨a, rfl⟩

theorem writeComment_lines (c : GoString) :
    writeComment c = (commentLines c).flatMap fun line => b! "// " ++ line ++ b! "\n" := by
  unfold writeComment commentLines
  by_cases h : c = [] <;> simp [h]

theorem endsLine_writeComment {c : GoString} (h : c ≠ []) : EndsLine (writeComment c) := by
  rw [writeComment_lines, commentLines, if_neg h]
  have hne : splitOn newline c ≠ [] := by
    have := splitOn_append newline c []
    intro h0
    cases c with
    | nil => exact h rfl
    | cons x c =>
      by_cases hx : x = newline
      · simp [splitOn, hx] at h0
      · obtain ⟨p, ps, -, h2⟩ := splitOn_cons_ne hx c
        rw [h2] at h0
        cases h0
  rw [← List.dropLast_append_getLast hne, List.flatMap_append]
  refine .append _ ?_
  simp only [List.flatMap_cons, List.flatMap_nil, List.append_nil]
  exact endsLine_newline _

theorem commentLine_doc {c : GoString} : ∀ l ∈ docLines c, isCommentLine l = true := by
  intro l hl
  obtain ⟨x, -, rfl⟩ := List.mem_map.1 hl
  rfl

/-- C76: a comment that is written at the beginning of a line adds its lines, and nothing else, to the comment above
what follows. -/
theorem C76_comment {pre : GoString} (hp : pre = [] ∨ EndsLine pre) (c : GoString) :
    docAbove (pre ++ writeComment c) = docAbove pre ++ docLines c := by
  have hd : ∀ l ∈ (docLines c).reverse, isCommentLine l = true := fun l hl => commentLine_doc l (by simpa using hl)
  have hw := splitOn_writeComment c []
  rw [List.append_nil] at hw
  rcases hp with rfl | ⟨t, rfl⟩
  · simp only [docAbove, List.nil_append]
    rw [hw]
    show _ = (match (splitOn newline []).reverse with | [] :: ls => (ls.takeWhile isCommentLine).reverse | _ => []) ++ _
    simp only [splitOn, List.reverse_append, List.reverse_cons, List.reverse_nil, List.nil_append, List.cons_append,
      List.takeWhile_nil]
    show (List.takeWhile isCommentLine (docLines c).reverse).reverse = docLines c
    have := List.takeWhile_append_of_pos hd (l₂ := [])
    rw [List.append_nil] at this
    rw [this, List.takeWhile_nil, List.append_nil, List.reverse_reverse]
  · have e : t ++ [newline] ++ writeComment c = t ++ newline :: writeComment c := by simp
    simp only [docAbove]
    rw [e, splitOn_append, hw, show t ++ [newline] = t ++ newline :: [] from rfl, splitOn_append]
    simp only [splitOn, List.reverse_append, List.reverse_cons, List.reverse_nil, List.nil_append, List.cons_append]
    show (List.takeWhile isCommentLine ((docLines c).reverse ++ _)).reverse = _
    rw [List.takeWhile_append_of_pos hd]
    simp

/-- There is no comment above what follows an empty line. -/
theorem docAbove_emptyLine {pre : GoString} (h : pre = [] ∨ EndsLine pre) : docAbove (pre ++ b! "\n") = [] := by
  rcases h with rfl | ⟨t, rfl⟩
  · rfl
  · rw [show t ++ [newline] ++ b! "\n" = t ++ newline :: newline :: [] by simp [newline], docAbove, splitOn_append,
      show newline :: [] = [] ++ newline :: ([] : GoString) from rfl, splitOn_append]
    simp only [splitOn, List.reverse_append, List.reverse_cons, List.reverse_nil, List.nil_append, List.cons_append]
    rw [List.takeWhile_cons_of_neg (by decide)]
    rfl

/-- C76: nor above what follows a line that is not a comment. -/
theorem C76_line {pre l : GoString} (h : pre = [] ∨ EndsLine pre) (hn : newline ∉ l) (hl : isCommentLine l = false) :
    docAbove (pre ++ l ++ b! "\n") = [] := by
  rcases h with rfl | ⟨t, rfl⟩
  · rw [List.nil_append, show l ++ b! "\n" = l ++ newline :: [] from rfl, docAbove, splitOn_append, splitOn_of_not_mem hn]
    simp only [splitOn, List.reverse_cons, List.reverse_nil, List.nil_append, List.cons_append]
    rw [List.takeWhile_cons_of_neg (by simp [hl])]
    rfl
  · rw [show t ++ [newline] ++ l ++ b! "\n" = t ++ newline :: (l ++ newline :: []) by simp [newline], docAbove, splitOn_append,
      splitOn_append, splitOn_of_not_mem hn]
    simp only [splitOn, List.reverse_append, List.reverse_cons, List.reverse_nil, List.nil_append, List.cons_append]
    rw [List.takeWhile_cons_of_neg (by simp [hl])]
    rfl

/-! ### The package -/

theorem packageClause_start (tbl : Nat → Bool) (f : GoFile) :
    ∃ rest, f.packageClause tbl = b! "package " ++ f.packageName ++ rest ∧ EndsLine (f.packageClause tbl) := by
  unfold GoFile.packageClause
  split
  · exact ⟨b! " // import " ++ quote tbl f.canonicalImportPath ++ b! "\n", by simp, endsLine_newline _⟩
  · exact ⟨b! "\n", rfl, endsLine_newline _⟩

/-- What stands before the package clause. -/
theorem docAbove_clause (a b : GoString) :
    docAbove (writeComment a ++ (if a ≠ [] then b! "\n" else []) ++ writeComment b) = docLines b := by
  by_cases h0 : a = []
  · simp only [h0, ne_eq, not_true_eq_false, if_false, List.append_nil]
    rw [show writeComment [] = [] from rfl, C76_comment (.inl rfl)]
    rfl
  · simp only [h0, ne_eq, not_false_eq_true, if_true]
    rw [C76_comment (.inr (endsLine_newline _)), docAbove_emptyLine (.inr (endsLine_writeComment h0))]
    rfl

/-- C76: the package is documented by the package comment, and not by the file comment. There is nothing but comments
before the package clause. -/
theorem C76_package {env : Env} {fuel : Nat} {p : Ptr} {h h' : Heap} {f : GoFile} {text : GoString} (hf : h.files p = some f)
    (hr : renderFile env fuel p h = (.ok text, h')) :
    ∃ pre post, text = pre ++ b! "package " ++ f.packageName ++ post ∧ docAbove pre = docLines f.packageComment ∧
      ∀ l ∈ splitOn newline pre, l = [] ∨ isCommentLine l = true := by
  obtain ⟨f0, i, h1, -, -, h4⟩ := renderFile_ok hr
  rw [hf] at h1
  cases h1
  obtain ⟨body, -, h2⟩ := bind_eq_ok h4
  cases h2
  obtain ⟨rest, h5, -⟩ := packageClause_start env.isPrint { f with imports := i }
  rw [h5]
  refine ⟨_, rest ++ b! "\n" ++ (i.importSpecs.map (ImportSpec.statement env.isPrint)).flatten ++ body, ?_,
    docAbove_clause f.fileComment f.packageComment, ?_⟩
  · simp only [List.append_assoc]
  · intro l hl
    have hw := splitOn_writeComment f.packageComment []
    rw [List.append_nil] at hw
    have hd : ∀ c, l ∈ (commentLines c).map (b! "// " ++ ·) → isCommentLine l = true := fun c h => commentLine_doc l h
    rw [List.append_assoc, splitOn_writeComment] at hl
    by_cases h0 : f.fileComment = []
    · simp only [h0, ne_eq, not_true_eq_false, if_false, List.nil_append] at hl
      rw [hw] at hl
      simp only [List.mem_append, splitOn, List.mem_singleton] at hl
      rcases hl with h | h | h
      · exact .inr (hd _ h)
      · exact .inr (hd _ h)
      · exact .inl h
    · simp only [h0, ne_eq, not_false_eq_true, if_true] at hl
      rw [show b! "\n" ++ writeComment f.packageComment = [] ++ newline :: writeComment f.packageComment from rfl,
        splitOn_append, hw] at hl
      simp only [List.mem_append, splitOn, List.mem_singleton] at hl
      rcases hl with h | h | h | h
      · exact .inr (hd _ h)
      · exact .inl h
      · exact .inr (hd _ h)
      · exact .inl h

/-! ### The imports -/

theorem statement_line (tbl : Nat → Bool) {s : ImportSpec} (hn : newline ∉ s.packageAlias) :
    ∃ l, s.statement tbl = l ++ b! "\n" ∧ newline ∉ l ∧ isCommentLine l = false := by
  have hq : newline ∉ quote tbl s.importPath := quote_noNl tbl s.importPath
  unfold ImportSpec.statement
  split
  · refine ⟨b! "import " ++ s.packageAlias ++ b! " " ++ quote tbl s.importPath, rfl, ?_, rfl⟩
    simp only [List.mem_append, not_or]
    exact ⟨⟨⟨by decide, hn⟩, by decide⟩, hq⟩
  · refine ⟨b! "import " ++ quote tbl s.importPath, rfl, ?_, rfl⟩
    simp only [List.mem_append, not_or]
    exact ⟨by decide, hq⟩

/-- C76: the import statements have no comments above them (which would be C source text for `import "C"`). -/
theorem C76_imports {env : Env} {fuel : Nat} {p : Ptr} {h h' : Heap} {f : GoFile} {text : GoString} (hf : h'.files p = some f)
    (hr : renderFile env fuel p h = (.ok text, h')) (ha : ∀ s ∈ f.imports.importSpecs, newline ∉ s.packageAlias)
    {k : Nat} {s : ImportSpec} (hk : f.imports.importSpecs[k]? = some s) :
    ∃ pre post, text = pre ++ s.statement env.isPrint ++ post ∧ docAbove pre = [] := by
  obtain ⟨f0, i, h1, -, h3, h4⟩ := renderFile_ok hr
  rw [h3, upd_same] at hf
  cases hf
  obtain ⟨body, -, h2⟩ := bind_eq_ok h4
  cases h2
  dsimp only at ha hk ⊢
  generalize hS : i.importSpecs = S at ha hk
  obtain ⟨-, -, hc⟩ := packageClause_start env.isPrint { f0 with imports := i }
  generalize hP : writeComment f0.fileComment ++ (if f0.fileComment ≠ [] then b! "\n" else [])
    ++ writeComment f0.packageComment ++ GoFile.packageClause env.isPrint { f0 with imports := i } = P
  have hPe : EndsLine P := by rw [← hP]; exact hc.append _
  have hsplit : S = S.take k ++ s :: S.drop (k + 1) := by
    rw [List.getElem?_eq_some_iff] at hk
    obtain ⟨hlt, rfl⟩ := hk
    simp
  refine ⟨P ++ b! "\n" ++ ((S.take k).map (ImportSpec.statement env.isPrint)).flatten,
    ((S.drop (k + 1)).map (ImportSpec.statement env.isPrint)).flatten ++ body, ?_, ?_⟩
  · conv_lhs => rw [hsplit]
    simp only [List.map_append, List.map_cons, List.flatten_append, List.flatten_cons, List.append_assoc]
  · rcases List.eq_nil_or_concat (S.take k) with h0 | ⟨S', x, h0⟩
    · rw [h0]
      simp only [List.map_nil, List.flatten_nil, List.append_nil]
      exact docAbove_emptyLine (.inr hPe)
    · have hx : x ∈ S := List.mem_of_mem_take (i := k) (by rw [h0]; simp)
      obtain ⟨l, h5, h6, h7⟩ := statement_line env.isPrint (ha x hx)
      rw [h0]
      simp only [List.concat_eq_append, List.map_append, List.map_cons, List.map_nil, List.flatten_append, List.flatten_cons,
        List.flatten_nil, List.append_nil]
      rw [h5, ← List.append_assoc, ← List.append_assoc]
      refine C76_line (.inr ?_) h6 h7
      have : ∀ L : List ImportSpec, EndsLine (P ++ b! "\n" ++ (L.map (ImportSpec.statement env.isPrint)).flatten) := by
        intro L
        rcases List.eq_nil_or_concat L with rfl | ⟨L', y, rfl⟩
        · simpa using endsLine_newline P
        · simp only [List.concat_eq_append, List.map_append, List.map_cons, List.map_nil, List.flatten_append, List.flatten_cons,
            List.flatten_nil, List.append_nil]
          refine .append _ (.append _ ?_)
          unfold ImportSpec.statement
          split <;> exact endsLine_newline _
      exact this S'

/-! ### The elements -/

theorem endsLine_valueSpec {env : Env} {h : Heap} {c : ValueSpec} {b : Bool} {s : GoString} (hs : c.text env h b = .ok s) :
    EndsLine s := by
  obtain ⟨x, -, hs⟩ := bind_eq_ok hs
  cases hs
  exact endsLine_newline _

theorem endsLine_underlying {env : Env} {h : Heap} {t : TypeSpec} {fuel : Nat} {s : GoString}
    (hs : writeUnderlying env h fuel t = .ok s) : EndsLine s := by
  cases fuel with
  | zero => simp [writeUnderlying] at hs
  | succ fuel =>
    unfold writeUnderlying at hs
    split at hs
    · simp at hs
    all_goals
      obtain ⟨x, -, hs⟩ := bind_eq_ok hs
      cases hs
    · exact .append _ ⟨b! "}", rfl⟩
    · exact .append _ ⟨b! "}", rfl⟩
    · exact endsLine_newline _

theorem endsLine_typeSpec {env : Env} {h : Heap} {t : TypeSpec} {fuel : Nat} {b : Bool} {s : GoString}
    (hs : t.text env h fuel b = .ok s) : EndsLine s := by
  obtain ⟨x, hx, hs⟩ := bind_eq_ok hs
  cases hs
  exact .append _ (endsLine_underlying hx)

/-- The text of an element: its comment, its keyword, and something that ends with the end of a line. -/
theorem elem_commented {env : Env} {h : Heap} {fuel : Nat} {e : FileElem} {s : GoString} (hs : e.text env h fuel = .ok s) :
    ∃ kw c rest, e.Commented h kw c ∧ s = writeComment c ++ kw ++ rest ∧ EndsLine rest := by
  cases e with
  | values p =>
    obtain ⟨d, hd, hs⟩ := bind_eq_ok hs
    unfold ValueDecl.text at hs
    split at hs
    · rename_i hg
      obtain ⟨body, -, hs⟩ := bind_eq_ok hs
      cases hs
      refine ⟨_, d.comment, b! "(\n" ++ body ++ b! ")\n", ⟨d, deref_eq_ok hd, rfl, .inl ⟨hg, rfl⟩⟩, ?_, .append _ ⟨b! ")", rfl⟩⟩
      cases d.kind <;> simp [ValueKind.keyword]
    · rename_i hg
      split at hs
      · cases hs
      · rename_i q qs hq
        obtain ⟨c, hc, hs⟩ := bind_eq_ok hs
        obtain ⟨body, hb, hs⟩ := bind_eq_ok hs
        cases hs
        simp only [not_or, Nat.not_lt, ne_eq, not_not] at hg
        have : qs = [] := by rw [hq] at hg; simpa using hg.1
        subst this
        refine ⟨_, c.comment, body, ⟨d, deref_eq_ok hd, rfl, .inr ⟨hg.2, q, c, hq, deref_eq_ok hc, rfl⟩⟩, ?_, endsLine_valueSpec hb⟩
        cases d.kind <;> simp [ValueKind.keyword]
  | types p =>
    obtain ⟨d, hd, hs⟩ := bind_eq_ok hs
    unfold TypeDecl.text at hs
    split at hs
    · rename_i hg
      obtain ⟨body, -, hs⟩ := bind_eq_ok hs
      cases hs
      exact ⟨_, d.comment, b! "(\n" ++ body ++ b! ")\n", ⟨d, deref_eq_ok hd, rfl, .inl ⟨hg, rfl⟩⟩, by simp, .append _ ⟨b! ")", rfl⟩⟩
    · rename_i hg
      split at hs
      · cases hs
      · rename_i q qs hq
        obtain ⟨c, hc, hs⟩ := bind_eq_ok hs
        obtain ⟨body, hb, hs⟩ := bind_eq_ok hs
        cases hs
        simp only [not_or, Nat.not_lt, ne_eq, not_not] at hg
        have : qs = [] := by rw [hq] at hg; simpa using hg.1
        subst this
        exact ⟨_, c.comment, body, ⟨d, deref_eq_ok hd, rfl, .inr ⟨hg.2, q, c, hq, deref_eq_ok hc, rfl⟩⟩, by simp, endsLine_typeSpec hb⟩
  | func p =>
    obtain ⟨f, hf, hs⟩ := bind_eq_ok hs
    obtain ⟨sig, -, hs⟩ := bind_eq_ok hs
    obtain ⟨code, -, hs⟩ := bind_eq_ok hs
    cases hs
    cases hr : f.receiver with
    | none =>
      exact ⟨_, f.comment, f.name ++ sig ++ b! " {\n" ++ code ++ b! "}\n", ⟨f, deref_eq_ok hf, rfl, rfl⟩,
        by simp only [List.append_assoc, List.nil_append], .append _ ⟨b! "}", rfl⟩⟩
    | some r =>
      exact ⟨_, f.comment, r.text ++ f.name ++ sig ++ b! " {\n" ++ code ++ b! "}\n", ⟨f, deref_eq_ok hf, rfl, rfl⟩,
        by simp only [List.append_assoc], .append _ ⟨b! "}", rfl⟩⟩

theorem skel_some {α : Type} {m m' : Ptr → Option α} {sk : α → α} (h : (fun q => (m' q).map sk) = fun q => (m q).map sk) {p : Ptr}
    {a : α} (hm : m' p = some a) : ∃ b, m p = some b ∧ sk b = sk a := by
  have := congrFun h p
  simp only [hm, Option.map_some] at this
  cases hb : m p with
  | none => rw [hb] at this; cases this
  | some b => rw [hb] at this; exact ⟨b, rfl, by simpa using this.symm⟩

/-- The comments do not depend on what a qualification pass changes. -/
theorem Commented.of_skeleton {h h' : Heap} (hs : h'.skeleton = h.skeleton) {e : FileElem} {kw c : GoString}
    (hc : e.Commented h' kw c) : e.Commented h kw c := by
  simp only [Heap.skeleton, Heap.mk.injEq] at hs
  obtain ⟨-, hv, hvd, ht, htd, -, -, -, hfu, -⟩ := hs
  cases e with
  | values p =>
    obtain ⟨d, h1, h2, h3⟩ := hc
    refine ⟨d, by rw [← hvd]; exact h1, h2, h3.imp_right ?_⟩
    rintro ⟨h4, s, v, h5, h6, h7⟩
    obtain ⟨v', h8, h9⟩ := skel_some hv h6
    exact ⟨h4, s, v', h5, h8, by rw [h7]; exact (congrArg ValueSpec.comment h9).symm⟩
  | types p =>
    obtain ⟨d, h1, h2, h3⟩ := hc
    refine ⟨d, by rw [← htd]; exact h1, h2, h3.imp_right ?_⟩
    rintro ⟨h4, s, v, h5, h6, h7⟩
    obtain ⟨v', h8, h9⟩ := skel_some ht h6
    exact ⟨h4, s, v', h5, h8, by rw [h7]; exact (congrArg TypeSpec.comment h9).symm⟩
  | func p =>
    obtain ⟨f, h1, h2, h3⟩ := hc
    obtain ⟨f', h8, h9⟩ := skel_some hfu h1
    exact ⟨f', h8, h2, by rw [h3]; exact (congrArg FuncSpec.comment h9).symm⟩

theorem endsLine_elems {P : GoString} (hP : EndsLine P) {ts : List GoString} (ht : ∀ t ∈ ts, EndsLine t) :
    EndsLine (P ++ ts.flatMap (b! "\n" ++ ·)) := by
  rcases List.eq_nil_or_concat ts with rfl | ⟨L, y, rfl⟩
  · simpa using hP
  · simp only [List.concat_eq_append, List.flatMap_append, List.flatMap_cons, List.flatMap_nil, List.append_nil]
    exact .append _ (.append _ (.append _ (ht y (by simp))))

/-- C76: every element of a file (with the text `t` that is written for it, after those of the elements before) is
documented by its comment, and by nothing else. -/
theorem C76_elements {env : Env} {fuel : Nat} {p : Ptr} {h h' : Heap} {f : GoFile} {text : GoString} (hf : h.files p = some f)
    (hr : renderFile env fuel p h = (.ok text, h')) :
    ∃ head elems, text = head ++ elems.flatMap (b! "\n" ++ ·) ∧
      List.Forall₂ (fun e t => FileElem.text env h' fuel e = .ok t) f.elements elems ∧
      ∀ k e, f.elements[k]? = some e → ∃ kw c rest, e.Commented h kw c ∧
        elems[k]? = some (writeComment c ++ kw ++ rest) ∧
        docAbove (head ++ (elems.take k).flatMap (b! "\n" ++ ·) ++ b! "\n" ++ writeComment c) = docLines c := by
  have hsk : h'.skeleton = h.skeleton := by
    have := (C63_changes_only env fuel p h).1
    rw [hr] at this
    exact this
  obtain ⟨f0, i, h1, -, h3, h4⟩ := renderFile_ok hr
  rw [hf] at h1
  cases h1
  obtain ⟨body, h5, h6⟩ := bind_eq_ok h4
  cases h6
  obtain ⟨ts, h7, h8⟩ := concatText_ok h5
  have h9 : ∃ elems, List.Forall₂ (fun e t => FileElem.text env h' fuel e = .ok t) f.elements elems ∧
      body = elems.flatMap (b! "\n" ++ ·) := by
    subst h8
    simp only at h7
    generalize f.elements = es at h7 ⊢
    clear h5 hr h4
    induction h7 with
    | nil => exact ⟨[], .nil, rfl⟩
    | cons hx _ ih =>
      obtain ⟨elems, h1, h2⟩ := ih
      obtain ⟨s, h3, h4⟩ := bind_eq_ok hx
      cases h4
      exact ⟨s :: elems, .cons h3 h1, by simp only [List.flatten_cons, h2]; rfl⟩
  obtain ⟨elems, h9, rfl⟩ := h9
  generalize hP : writeComment f.fileComment ++ (if f.fileComment ≠ [] then b! "\n" else [])
    ++ writeComment f.packageComment ++ GoFile.packageClause env.isPrint { f with imports := i } ++ b! "\n"
    ++ (i.importSpecs.map (ImportSpec.statement env.isPrint)).flatten = P
  have hPe : EndsLine P := by
    rw [← hP]
    rcases List.eq_nil_or_concat i.importSpecs with h0 | ⟨L, y, h0⟩
    · rw [h0]
      simp only [List.map_nil, List.flatten_nil, List.append_nil]
      exact endsLine_newline _
    · rw [h0]
      simp only [List.concat_eq_append, List.map_append, List.map_cons, List.map_nil, List.flatten_append, List.flatten_cons,
        List.flatten_nil, List.append_nil]
      refine .append _ (.append _ ?_)
      unfold ImportSpec.statement
      split <;> exact endsLine_newline _
  have hall : ∀ t ∈ elems, EndsLine t := by
    intro t ht
    obtain ⟨k, hk, rfl⟩ := List.getElem_of_mem ht
    have hk' : k < f.elements.length := by rw [h9.length_eq]; exact hk
    obtain ⟨kw, c, rest, -, e, hrest⟩ := elem_commented (h9.get hk' hk)
    simp only [List.get_eq_getElem] at e
    rw [e]
    exact .append _ hrest
  refine ⟨P, elems, rfl, h9, fun k e hk => ?_⟩
  obtain ⟨hlt, rfl⟩ := List.getElem?_eq_some_iff.1 hk
  have hlt' : k < elems.length := by rw [← h9.length_eq]; exact hlt
  obtain ⟨kw, c, rest, hc, e, -⟩ := elem_commented (h9.get hlt hlt')
  simp only [List.get_eq_getElem] at hc e
  refine ⟨kw, c, rest, Commented.of_skeleton hsk hc, by rw [List.getElem?_eq_getElem hlt', e], ?_⟩
  rw [C76_comment (.inr (endsLine_newline _)), docAbove_emptyLine (.inr (endsLine_elems hPe fun t ht => hall t
    (List.mem_of_mem_take ht)))]
  rfl

/-! ### Specs, fields and methods -/

theorem docAbove_append {a b : GoString} (ha : a = [] ∨ EndsLine a) (hb : EndsLine b) (h : docAbove b = []) :
    docAbove (a ++ b) = [] := by
  obtain ⟨t, rfl⟩ := hb
  rcases ha with rfl | ⟨u, rfl⟩
  · exact h
  · rw [docAbove, splitOn_append] at h
    simp only [splitOn, List.reverse_append, List.reverse_cons, List.reverse_nil, List.nil_append, List.cons_append] at h
    rw [show u ++ [newline] ++ (t ++ [newline]) = u ++ newline :: (t ++ newline :: []) by simp, docAbove, splitOn_append,
      splitOn_append]
    simp only [splitOn, List.reverse_append, List.reverse_cons, List.reverse_nil, List.nil_append, List.cons_append]
    have hne : (splitOn newline t).reverse ≠ [] := by
      rw [Ne, List.reverse_eq_nil_iff]
      cases t with
      | nil => simp [splitOn]
      | cons x c =>
        by_cases hx : x = newline
        · simp [splitOn, hx]
        · obtain ⟨p, ps, -, h2⟩ := splitOn_cons_ne hx c
          rw [h2]; simp
    generalize (splitOn newline t).reverse = R at *
    cases R with
    | nil => exact absurd rfl hne
    | cons r R =>
      simp only [List.cons_append, List.takeWhile_cons] at h ⊢
      split at h
      · simp at h
      · rename_i hr
        simp [hr]

/-- In a list of commented texts, each is documented by its comment and nothing else, if none of them ends with a
line that is a comment. -/
theorem docAbove_list {head : GoString} (hh : EndsLine head) (hd : docAbove head = []) {items : List (GoString × GoString)}
    (hi : ∀ x ∈ items, EndsLine x.2 ∧ docAbove x.2 = []) (k : Nat) (c : GoString) :
    docAbove (head ++ (items.take k).flatMap (fun x => writeComment x.1 ++ x.2) ++ writeComment c) = docLines c := by
  have key : ∀ l : List (GoString × GoString), (∀ x ∈ l, EndsLine x.2 ∧ docAbove x.2 = []) →
      EndsLine (head ++ l.flatMap (fun x => writeComment x.1 ++ x.2)) ∧
      docAbove (head ++ l.flatMap (fun x => writeComment x.1 ++ x.2)) = [] := by
    intro l
    induction l using List.reverseRecOn with
    | nil => intro _; simpa using ⟨hh, hd⟩
    | append_singleton l x ih =>
      intro hl
      obtain ⟨h1, h2⟩ := ih fun y hy => hl y (by simp [hy])
      obtain ⟨h3, h4⟩ := hl x (by simp)
      have e : head ++ (l ++ [x]).flatMap (fun x => writeComment x.1 ++ x.2)
          = (head ++ l.flatMap (fun x => writeComment x.1 ++ x.2) ++ writeComment x.1) ++ x.2 := by simp
      rw [e]
      refine ⟨.append _ h3, docAbove_append (.inr ?_) h3 h4⟩
      by_cases h0 : x.1 = []
      · rw [h0]; simpa [writeComment] using h1
      · exact .append _ (endsLine_writeComment h0)
  obtain ⟨h1, h2⟩ := key (items.take k) fun x hx => hi x (List.mem_of_mem_take hx)
  rw [C76_comment (.inr h1), h2]
  rfl

/-- Commented texts as they are written one after the other. -/
theorem concat_commented {α : Type} {g : α → Outcome GoString} {comment : α → GoString → Prop}
    (hg : ∀ a s, g a = .ok s → ∃ c b, comment a c ∧ s = writeComment c ++ b ∧ EndsLine b) :
    ∀ {l : List α} {s : GoString}, concatText g l = .ok s → ∃ items : List (GoString × GoString),
      List.Forall₂ (fun a x => comment a x.1 ∧ g a = .ok (writeComment x.1 ++ x.2)) l items ∧ (∀ x ∈ items, EndsLine x.2) ∧
      s = items.flatMap fun x => writeComment x.1 ++ x.2
  | [], s, h => by cases h; exact ⟨[], .nil, by simp, rfl⟩
  | a :: l, s, h => by
    obtain ⟨x, hx, h⟩ := bind_eq_ok h
    obtain ⟨y, hy, h⟩ := bind_eq_ok h
    cases h
    obtain ⟨c, b, h1, h2, h3⟩ := hg a x hx
    obtain ⟨items, h4, h5, h6⟩ := concat_commented hg hy
    refine ⟨(c, b) :: items, .cons ⟨h1, by rw [hx, h2]⟩ h4, List.forall_mem_cons.2 ⟨h3, h5⟩, ?_⟩
    rw [h2, h6]
    simp

/-- The texts in `items` are written one after the other, after `head` and before `tail`, with their comments; and
after everything that leaves no comment above them, each is documented by its comment and nothing else, if none
of the texts ends with a line that is a comment. -/
def Documented (head : GoString) (items : List (GoString × GoString)) (tail text : GoString) : Prop :=
  text = head ++ items.flatMap (fun x => writeComment x.1 ++ x.2) ++ tail ∧
  ∀ pre, docAbove (pre ++ head) = [] → (∀ x ∈ items, docAbove x.2 = []) → ∀ k c b, items[k]? = some (c, b) →
    docAbove (pre ++ head ++ (items.take k).flatMap (fun x => writeComment x.1 ++ x.2) ++ writeComment c) = docLines c

theorem documented {head tail : GoString} {items : List (GoString × GoString)} (hh : EndsLine head)
    (hi : ∀ x ∈ items, EndsLine x.2) :
    Documented head items tail (head ++ items.flatMap (fun x => writeComment x.1 ++ x.2) ++ tail) :=
  ⟨rfl, fun _ hp hd k c _ _ => docAbove_list (hh.append _) hp (fun x hx => ⟨hi x hx, hd x hx⟩) k c⟩

/-- C76: the constants or variables of a group. -/
theorem C76_values {env : Env} {h : Heap} {d : ValueDecl} {s : GoString} (hs : d.text env h = .ok s)
    (hg : d.specs.length > 1 ∨ d.comment ≠ []) :
    ∃ items, List.Forall₂ (fun p (x : GoString × GoString) => ∃ v, h.values p = some v ∧ x.1 = v.comment ∧
        v.text env h true = .ok (writeComment x.1 ++ x.2)) d.specs items ∧
      Documented (writeComment d.comment ++ d.kind.keyword ++ b! " (\n") items (b! ")\n") s := by
  rw [ValueDecl.text, if_pos hg] at hs
  obtain ⟨body, hb, hs⟩ := bind_eq_ok hs
  cases hs
  obtain ⟨items, h1, h2, rfl⟩ := concat_commented (comment := fun p c => ∃ v, h.values p = some v ∧ c = v.comment) (by
    intro p s hs
    obtain ⟨v, hv, hs⟩ := bind_eq_ok hs
    rw [valueSpec_comment] at hs
    obtain ⟨x, hx, hs⟩ := bind_eq_ok hs
    cases hs
    exact ⟨v.comment, x, ⟨v, deref_eq_ok hv, rfl⟩, by simp, endsLine_valueSpec hx⟩) hb
  refine ⟨items, h1.imp ?_, documented (.append _ ⟨b! " (", rfl⟩) h2⟩
  rintro p x ⟨⟨v, hv, e⟩, hx⟩
  obtain ⟨v', hv', hx⟩ := bind_eq_ok hx
  have := deref_eq_ok hv'
  rw [hv] at this
  cases this
  exact ⟨v, hv, e, hx⟩

/-- C76: the types of a group. -/
theorem C76_types {env : Env} {h : Heap} {fuel : Nat} {d : TypeDecl} {s : GoString} (hs : d.text env h fuel = .ok s)
    (hg : d.types.length > 1 ∨ d.comment ≠ []) :
    ∃ items, List.Forall₂ (fun p (x : GoString × GoString) => ∃ t, h.types p = some t ∧ x.1 = t.comment ∧
        t.text env h fuel true = .ok (writeComment x.1 ++ x.2)) d.types items ∧
      Documented (writeComment d.comment ++ b! "type (\n") items (b! ")\n") s := by
  rw [TypeDecl.text, if_pos hg] at hs
  obtain ⟨body, hb, hs⟩ := bind_eq_ok hs
  cases hs
  obtain ⟨items, h1, h2, rfl⟩ := concat_commented (comment := fun p c => ∃ v, h.types p = some v ∧ c = v.comment) (by
    intro p s hs
    obtain ⟨v, hv, hs⟩ := bind_eq_ok hs
    rw [typeSpec_comment] at hs
    obtain ⟨x, hx, hs⟩ := bind_eq_ok hs
    cases hs
    exact ⟨v.comment, x, ⟨v, deref_eq_ok hv, rfl⟩, by simp, endsLine_typeSpec hx⟩) hb
  refine ⟨items, h1.imp ?_, documented (.append _ ⟨b! "type (", rfl⟩) h2⟩
  rintro p x ⟨⟨v, hv, e⟩, hx⟩
  obtain ⟨v', hv', hx⟩ := bind_eq_ok hx
  have := deref_eq_ok hv'
  rw [hv] at this
  cases this
  exact ⟨v, hv, e, hx⟩

theorem struct_items {env : Env} {h : Heap} {sub : TypeSpec → Outcome GoString} {ps : List Ptr} {s : GoString}
    (hs : concatText (fun p => (deref h.fields p).bind fun f => f.text env h sub) ps = .ok s) :
    ∃ items, List.Forall₂ (fun p (x : GoString × GoString) => ∃ f, h.fields p = some f ∧ x.1 = f.comment ∧
        f.text env h sub = .ok (writeComment x.1 ++ x.2)) ps items ∧ (∀ x ∈ items, EndsLine x.2) ∧
      s = items.flatMap fun x => writeComment x.1 ++ x.2 := by
  obtain ⟨items, h1, h2, rfl⟩ := concat_commented (comment := fun p c => ∃ f, h.fields p = some f ∧ c = f.comment) (by
    intro p s hs
    obtain ⟨v, hv, hs⟩ := bind_eq_ok hs
    obtain ⟨x, hx, hs⟩ := bind_eq_ok hs
    cases hs
    exact ⟨v.comment, (if v.name ≠ [] then v.name ++ b! " " else []) ++ x ++ fieldTagText env.isPrint v.tag ++ b! "\n",
      ⟨v, deref_eq_ok hv, rfl⟩, by simp only [List.append_assoc], endsLine_newline _⟩) hs
  refine ⟨items, h1.imp ?_, h2, rfl⟩
  rintro p x ⟨⟨v, hv, e⟩, hx⟩
  obtain ⟨v', hv', hx⟩ := bind_eq_ok hx
  have := deref_eq_ok hv'
  rw [hv] at this
  cases this
  exact ⟨v, hv, e, hx⟩

/-- The comment of an element of an interface. -/
def IfaceElem.Commented (h : Heap) : IfaceElem → GoString → Prop
  | .embed p, c => ∃ e, h.embeds p = some e ∧ c = e.comment
  | .method p, c => ∃ m, h.methods p = some m ∧ c = m.comment

theorem interface_items {env : Env} {h : Heap} {es : List IfaceElem} {s : GoString}
    (hs : concatText (IfaceElem.text env h) es = .ok s) :
    ∃ items, List.Forall₂ (fun (e : IfaceElem) (x : GoString × GoString) => e.Commented h x.1 ∧
        e.text env h = .ok (writeComment x.1 ++ x.2)) es items ∧ (∀ x ∈ items, EndsLine x.2) ∧
      s = items.flatMap fun x => writeComment x.1 ++ x.2 := by
  refine concat_commented (fun e s hs => ?_) hs
  cases e with
  | embed p =>
    obtain ⟨v, hv, hs⟩ := bind_eq_ok hs
    cases hs
    exact ⟨v.comment, v.type.string ++ b! "\n", ⟨v, deref_eq_ok hv, rfl⟩, by simp [InterfaceEmbed.text], endsLine_newline _⟩
  | method p =>
    obtain ⟨v, hv, hs⟩ := bind_eq_ok hs
    obtain ⟨x, hx, hs⟩ := bind_eq_ok hs
    cases hs
    exact ⟨v.comment, v.name ++ x ++ b! "\n", ⟨v, deref_eq_ok hv, rfl⟩, by simp, endsLine_newline _⟩

/-- C76: the fields of a struct type. -/
theorem C76_fields {env : Env} {h : Heap} {fuel : Nat} {t : TypeSpec} {s : GoString} {fs : List FieldType}
    (hs : writeUnderlying env h (fuel + 1) t = .ok s) (hu : t.underlying = .struct fs) :
    ∃ items, List.Forall₂ (fun p (x : GoString × GoString) => ∃ f, h.fields p = some f ∧ x.1 = f.comment ∧
        f.text env h (writeUnderlying env h fuel) = .ok (writeComment x.1 ++ x.2)) t.structBody items ∧
      Documented (b! " struct {\n") items (b! "}\n") s := by
  rw [writeUnderlying, hu] at hs
  obtain ⟨a, ha, hs⟩ := bind_eq_ok hs
  cases hs
  obtain ⟨items, h1, h2, rfl⟩ := struct_items ha
  exact ⟨items, h1, documented ⟨b! " struct {", rfl⟩ h2⟩

/-- C76: the elements of an interface type. -/
theorem C76_methods {env : Env} {h : Heap} {fuel : Nat} {t : TypeSpec} {s : GoString} {ms es}
    (hs : writeUnderlying env h (fuel + 1) t = .ok s) (hu : t.underlying = .interface ms es) :
    ∃ items, List.Forall₂ (fun (e : IfaceElem) (x : GoString × GoString) => e.Commented h x.1 ∧
        e.text env h = .ok (writeComment x.1 ++ x.2)) t.interfaceBody items ∧
      Documented (b! " interface {\n") items (b! "}\n") s := by
  rw [writeUnderlying, hu] at hs
  obtain ⟨a, ha, hs⟩ := bind_eq_ok hs
  cases hs
  obtain ⟨items, h1, h2, rfl⟩ := interface_items ha
  exact ⟨items, h1, documented ⟨b! " interface {", rfl⟩ h2⟩

/-- C76: a type with a struct or interface type does not end with a comment. -/
theorem C76_body {env : Env} {h : Heap} {fuel : Nat} {t : TypeSpec} {s : GoString} (hs : t.text env h fuel false = .ok s)
    (hu : (∃ fs, t.underlying = .struct fs) ∨ ∃ ms es, t.underlying = .interface ms es) : docAbove s = [] := by
  obtain ⟨u, hx, hs⟩ := bind_eq_ok hs
  cases hs
  have key : ∀ (X : GoString) (l : List (GoString × GoString)), EndsLine X → (∀ x ∈ l, EndsLine x.2) →
      docAbove (X ++ l.flatMap (fun x => writeComment x.1 ++ x.2) ++ b! "}\n") = [] := by
    intro X l hX hl
    rw [show b! "}\n" = b! "}" ++ b! "\n" from rfl, ← List.append_assoc]
    refine C76_line (.inr ?_) (by decide) (by decide)
    rcases List.eq_nil_or_concat l with rfl | ⟨L, y, rfl⟩
    · simpa using hX
    · simp only [List.concat_eq_append, List.flatMap_append, List.flatMap_cons, List.flatMap_nil, List.append_nil]
      exact .append _ (.append _ (.append _ (hl y (by simp))))
  cases fuel with
  | zero => simp [writeUnderlying] at hx
  | succ fuel =>
    rcases hu with ⟨fs, hu⟩ | ⟨ms, es, hu⟩
    · rw [writeUnderlying, hu] at hx
      obtain ⟨a, ha, hx⟩ := bind_eq_ok hx
      obtain ⟨items, -, h2, rfl⟩ := struct_items ha
      cases hx
      simp only [← List.append_assoc]
      exact key _ _ (.append _ ⟨b! " struct {", rfl⟩) h2
    · rw [writeUnderlying, hu] at hx
      obtain ⟨a, ha, hx⟩ := bind_eq_ok hx
      obtain ⟨items, -, h2, rfl⟩ := interface_items ha
      cases hx
      simp only [← List.append_assoc]
      exact key _ _ (.append _ ⟨b! " interface {", rfl⟩) h2

/- The declarations of a file with comments (`exFile` in Props/Decls.lean), and what is above them. -/
example : docAbove (b! "// file\n// c\n\n// pkg\n") = [b! "// pkg"] ∧ docLines (b! "pkg") = [b! "// pkg"] := by decide +kernel
example : docAbove (b! "package p\n\nimport \"x/q\"\n\nconst A q.N\n\n// d\n// e\n") = docLines (b! "d\ne") := by decide +kernel
example : docAbove (b! "package p\n\n// d\n\n") = [] := by decide +kernel

/-- A file whose elements have comments with several lines. -/
def exDocs : Heap where
  files p := if p = 0 then some { name := b! "p.go", packageName := b! "p", imports := newImportsFor (b! "x/p"), fileComment := b! "f",
                                  packageComment := b! "Package p\n\nis p.", elements := [.types 0, .values 0, .func 0] } else none
  typeDecls p := if p = 0 then some { types := [0] } else none
  types p := if p = 0 then some { name := b! "T", underlying := .struct [], structBody := [0, 1], comment := b! "T is\nt." } else none
  fields p := if p = 0 then some { name := b! "A", type := .name (.basic .int), comment := b! "A is a." }
    else if p = 1 then some { name := b! "B", type := .name (.basic .int) } else none
  valueDecls p := if p = 0 then some { kind := .var, specs := [0, 1], comment := b! "vars" } else none
  values p := if p = 0 then some { kind := .var, names := [b! "X"], type := .name (.basic .int) }
    else if p = 1 then some { kind := .var, names := [b! "Y"], type := .name (.basic .int), comment := b! "y" } else none
  funcs p := if p = 0 then some { name := b! "F", comment := b! "F is f." } else none

example : (renderFile exEnv 3 0 exDocs).1 = .ok (b! "// f\n\n// Package p\n// \n// is p.\npackage p\n\n\n// T is\n// t.\ntype T  struct {\n// A is a.\nA int\nB int\n}\n\n// vars\nvar (\nX int\n// y\nY int\n)\n\n// F is f.\nfunc F() {\n}\n") := by
  decide +kernel

/- The hypotheses of the theorems for lists are fulfilled there: no text of a spec or field ends with a comment. -/
example : docAbove (b! "X int\n") = [] ∧ docAbove (b! "A int\n") = [] ∧ docAbove (b! "// vars\nvar (\n") = [] := by decide +kernel

/- They are needed: the code of an initial value can end with a comment, which then documents what follows. -/
example : docAbove (b! "var (\nX = 1\n// x\n") = [b! "// x"] := by decide +kernel

end Gopoet
