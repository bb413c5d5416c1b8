import Verif.Props.Output
/-! Property C38: the directory that `WriteGoFilesToFileSystem` makes for a file. -/

namespace Gopoet

/-- Cleaning the kept elements keeps them. -/
def KeptElems (rooted : Bool) (st : List GoString) : Prop :=
  st.foldr (fun e s => cleanStep rooted s e) [] = st

theorem keptElems_step {rooted : Bool} {st : List GoString} (e : GoString) (h : KeptElems rooted st)
    (hst : ∀ x ∈ st, x ≠ [] ∧ x ≠ b! ".") : KeptElems rooted (cleanStep rooted st e) := by
  have push : cleanStep rooted st e = e :: st → KeptElems rooted (e :: st) := by
    intro he
    rw [KeptElems, List.foldr_cons, h, he]
  by_cases h1 : e = [] ∨ e = b! "."
  · rw [cleanStep.eq_def, if_pos h1]; exact h
  · by_cases h2 : e = b! ".."
    · subst h2
      cases st with
      | nil =>
        cases rooted with
        | true => rfl
        | false => exact push rfl
      | cons top below =>
        by_cases h3 : top = b! ".."
        · have he : cleanStep rooted (top :: below) (b! "..") = b! ".." :: top :: below := by
            simp [cleanStep, h3]
          rw [he]; exact push he
        · have he : cleanStep rooted (top :: below) (b! "..") = below := by simp [cleanStep, h3]
          rw [he]
          have ht := hst top (by simp)
          rw [KeptElems, List.foldr_cons, cleanStep.eq_def, if_neg (by simp [ht.1, ht.2]), if_neg h3] at h
          exact (List.cons.inj h).2
    · have he : cleanStep rooted st e = e :: st := by rw [cleanStep.eq_def, if_neg h1, if_neg h2]
      rw [he]; exact push he

theorem keptElems_foldl (rooted : Bool) (es : List GoString) : ∀ (st : List GoString), (∀ e ∈ es, slash ∉ e) →
    (∀ x ∈ st, slash ∉ x ∧ x ≠ [] ∧ x ≠ b! ".") → KeptElems rooted st →
    KeptElems rooted (es.foldl (cleanStep rooted) st) := by
  induction es with
  | nil => intro st _ _ h; exact h
  | cons e es ih =>
    intro st hes hst h
    rw [List.foldl_cons]
    refine ih _ (fun x hx => hes x (by simp [hx])) ?_ (keptElems_step e h fun x hx => (hst x hx).2)
    have := cleanStep_elems rooted [e] st (by simpa using hes e (by simp)) hst
    simpa using this

/-- what precedes the last slash -/
theorem beforeLastSlash (d : GoString) {name : GoString} (h : slash ∉ name) :
    (((d ++ slash :: name).reverse).dropWhile (· != slash)).reverse = d ++ [slash] := by
  have key : ∀ (l t : GoString), slash ∉ l → (l ++ slash :: t).dropWhile (· != slash) = slash :: t := by
    intro l t hl
    induction l with
    | nil => simp
    | cons c l ih =>
      simp only [List.mem_cons, not_or] at hl
      rw [List.cons_append, List.dropWhile_cons_of_pos (by simpa using Ne.symm hl.1), ih hl.2]
  have e : (d ++ slash :: name).reverse = name.reverse ++ slash :: d.reverse := by simp
  rw [e, key _ _ (by simpa using h)]
  simp

theorem dir_noSlash {name : GoString} (h : slash ∉ name) : filepathDir name = b! "." := by
  have key : ∀ l : GoString, slash ∉ l → l.dropWhile (· != slash) = [] := by
    intro l hl
    induction l with
    | nil => rfl
    | cons c l ih =>
      simp only [List.mem_cons, not_or] at hl
      rw [List.dropWhile_cons_of_pos (by simpa using Ne.symm hl.1), ih hl.2]
  have := key name.reverse (by simpa using h)
  rw [filepathDir, this]
  decide

/-- the directory of a cleaned path whose last element is a file name -/
theorem dir_clean {p name : GoString} {es : List GoString} (hs : slash ∉ name) (h2 : name ≠ [])
    (h3 : name ≠ b! ".") (h4 : name ≠ b! "..") (hp : splitOn slash p = es ++ [name]) :
    (filepathClean p = name ∧ filepathDir (filepathClean p) = b! ".") ∨
    (filepathClean p = slash :: name ∧ filepathDir (filepathClean p) = b! "/") ∨
    filepathClean p = filepathDir (filepathClean p) ++ [slash] ++ name := by
  have hes : ∀ e ∈ es, slash ∉ e := fun e he => not_mem_splitOn slash p e (by rw [hp]; simp [he])
  generalize hr : decide (p.head? = some slash) = r
  generalize hst : es.foldl (cleanStep r) [] = st
  have hkept : KeptElems r st := hst ▸ keptElems_foldl r es [] hes (by simp) rfl
  have hel : ∀ e ∈ st, slash ∉ e ∧ e ≠ [] ∧ e ≠ b! "." := hst ▸ cleanStep_elems r es [] hes (by simp)
  have hc : filepathClean p = (if r then [slash] else []) ++ joinWith [slash] (st.reverse ++ [name]) := by
    unfold filepathClean
    simp only [hr, hp, foldl_last _ _ _ h2 h3 h4, hst, List.reverse_cons]
    cases r with
    | true => simp
    | false =>
      obtain ⟨dir, hj, -⟩ := joinWith_append_last [slash] st.reverse name
      simp [hj, h2]
  rw [hc]
  have hkept' : st.reverse.foldl (cleanStep r) [] = st := by rw [List.foldl_reverse]; exact hkept
  have hel' : ∀ e ∈ st.reverse, slash ∉ e ∧ e ≠ [] ∧ e ≠ b! "." := fun e he => hel e (by simpa using he)
  obtain ⟨Q, rfl⟩ : ∃ Q, st = Q.reverse := ⟨st.reverse, by simp⟩
  rw [List.reverse_reverse] at hkept' hel' ⊢
  clear hc hst hkept hel
  by_cases hQ : Q = []
  · subst hQ
    cases r with
    | true =>
      refine .inr (.inl ⟨by simp [joinWith], ?_⟩)
      have e : (if true = true then [slash] else []) ++ joinWith [slash] ([] ++ [name]) = [] ++ slash :: name := by
        simp [joinWith]
      rw [e, filepathDir, beforeLastSlash [] hs]
      decide
    | false =>
      have e : (if false = true then [slash] else []) ++ joinWith [slash] ([] ++ [name]) = name := by
        simp [joinWith]
      exact .inl ⟨e, by rw [e]; exact dir_noSlash hs⟩
  · refine .inr (.inr ?_)
    rw [joinWith_append _ hQ (by simp)]
    have hsQ : splitOn slash (joinWith [slash] Q) = Q := splitOn_joinWith slash Q hQ fun e he => (hel' e he).1
    have hj0 : joinWith [slash] Q ≠ [] := by
      intro h0
      rw [h0] at hsQ
      have : ([] : GoString) ∈ Q := by rw [← hsQ]; simp [splitOn]
      exact (hel' _ this).2.1 rfl
    have hjh : (joinWith [slash] Q).head? ≠ some slash := by
      intro hh
      cases hpe : joinWith [slash] Q with
      | nil => exact hj0 hpe
      | cons c t =>
        rw [hpe] at hh hsQ
        simp only [List.head?_cons, Option.some.injEq] at hh
        subst hh
        have := splitOn_append slash [] t
        rw [List.nil_append, hsQ] at this
        have : ([] : GoString) ∈ Q := by rw [this]; simp [splitOn]
        exact (hel' _ this).2.1 rfl
    have e : (if r = true then [slash] else []) ++ (joinWith [slash] Q ++ [slash] ++ joinWith [slash] [name])
        = ((if r = true then [slash] else []) ++ joinWith [slash] Q) ++ slash :: name := by
      simp [joinWith]
    rw [e, filepathDir, beforeLastSlash _ hs]
    have hd : filepathClean (((if r = true then [slash] else []) ++ joinWith [slash] Q) ++ [slash])
        = (if r = true then [slash] else []) ++ joinWith [slash] Q := by
      unfold filepathClean
      cases r with
      | true =>
        have e1 : ((if true = true then [slash] else []) ++ joinWith [slash] Q) ++ [slash]
            = [] ++ slash :: (joinWith [slash] Q ++ slash :: []) := by simp
        rw [e1, splitOn_append, splitOn_append, hsQ]
        have : (([] ++ slash :: (joinWith [slash] Q ++ slash :: []) : GoString).head? = some slash) := rfl
        simp only [this, decide_true, if_true, List.foldl_append]
        have e2 : (splitOn slash []).foldl (cleanStep true) [] = [] := by decide
        rw [e2, hkept']
        have e3 : (splitOn slash []).foldl (cleanStep true) Q.reverse = Q.reverse := by
          simp [splitOn, cleanStep]
        rw [e3]
        simp
      | false =>
        have e1 : ((if false = true then [slash] else []) ++ joinWith [slash] Q) ++ [slash]
            = joinWith [slash] Q ++ slash :: [] := by simp
        rw [e1, splitOn_append, hsQ]
        have : ((joinWith [slash] Q ++ slash :: [] : GoString).head? ≠ some slash) :=
          not_rooted_append hj0 hjh
        simp only [this, decide_false, Bool.false_eq_true, if_false, List.foldl_append]
        rw [hkept']
        have e3 : (splitOn slash []).foldl (cleanStep false) Q.reverse = Q.reverse := by
          simp [splitOn, cleanStep]
        rw [e3, List.reverse_reverse, if_neg hj0, List.nil_append]
    rw [hd]
    simp

/-- C38: the directory that is made before a file is opened is the one the file is in: the path of the
file is the directory, a slash and the name (or just the name, in the working directory, or the name at
the root). This holds for all roots and package paths. -/
theorem C38_directory {name : GoString} (hn : GoFileName name) (root pkgPath : GoString) :
    let path := filepathJoin root (filepathJoin pkgPath name)
    (path = name ∧ filepathDir path = b! ".") ∨ (path = slash :: name ∧ filepathDir path = b! "/") ∨
      path = filepathDir path ++ [slash] ++ name := by
  obtain ⟨h1, h2, h3, h4⟩ := hn.facts
  obtain ⟨dir, hj, hd⟩ := C38_last_element hn pkgPath
  have hsp : ∃ es, splitOn slash (filepathJoin pkgPath name) = es ++ [name] := by
    rw [hj]
    rcases hd with rfl | ⟨d, rfl⟩
    · exact ⟨[], by rw [List.nil_append, splitOn_of_not_mem h1]; rfl⟩
    · exact ⟨splitOn slash d, by
        rw [show d ++ [slash] ++ name = d ++ slash :: name by simp, splitOn_append, splitOn_of_not_mem h1]⟩
  obtain ⟨es, hes⟩ := hsp
  have hne : filepathJoin pkgPath name ≠ [] := by rw [hj]; simp [h2]
  by_cases hr : root = []
  · subst hr
    have : filepathJoin [] (filepathJoin pkgPath name) = filepathClean (filepathJoin pkgPath name) := by
      rw [filepathJoin, if_neg (by simp), if_pos hne]
    rw [this]
    exact dir_clean h1 h2 h3 h4 hes
  · have : filepathJoin root (filepathJoin pkgPath name) =
        filepathClean (root ++ slash :: filepathJoin pkgPath name) := by
      rw [filepathJoin, if_pos hr]; simp
    rw [this]
    refine dir_clean (es := splitOn slash root ++ es) h1 h2 h3 h4 ?_
    rw [splitOn_append, hes, List.append_assoc]

example : filepathDir (filepathJoin (b! "/go/src") (filepathJoin (b! "x/y") (b! "a.go"))) = b! "/go/src/x/y" := by decide
example : filepathDir (filepathJoin (b! "..") (filepathJoin (b! "../x/..") (b! "a.go"))) = b! "../.." := by decide
example : filepathDir (filepathJoin [] (filepathJoin [] (b! "a.go"))) = b! "." := by decide

end Gopoet
