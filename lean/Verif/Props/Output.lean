import Verif.Spec.Output
import Verif.Proof.TextLemmas
import Verif.Proof.HeapLemmas
/-!
# Properties C26, C27 and C35–C38: comments, new files, and the writing of files
-/

namespace Gopoet

/-! ## C26 -/

theorem commentText_lines (ls : List GoString) (h : ∀ l ∈ ls, (10 : UInt8) ∉ l) :
    CommentText (ls.flatMap fun line => b! "// " ++ line ++ b! "\n") := by
  induction ls with
  | nil => exact .nil
  | cons l ls ih =>
    have : CommentText (b! "//" ++ ((32 : UInt8) :: l) ++ b! "\n"
        ++ ls.flatMap fun line => b! "// " ++ line ++ b! "\n") := by
      refine .line ?_ (ih fun x hx => h x (by simp [hx]))
      simp only [List.mem_cons, not_or]
      exact ⟨by decide, h l (by simp)⟩
    simpa using this

/-- C26: whatever the comment, the text written is skipped by the scanner, up to its end. -/
theorem C26_only_comments (c : GoString) : CommentText (writeComment c) := by
  unfold writeComment
  split
  · exact commentText_lines _ (not_mem_splitOn newline c)
  · exact .nil

theorem uncomment_line (l rest cur : GoString) (h : (10 : UInt8) ∉ l) :
    uncomment (some cur) (l ++ 10 :: rest) = (uncomment none rest).map ((cur ++ l) :: ·) := by
  induction l generalizing cur with
  | nil => simp [uncomment]
  | cons c l ih =>
    simp only [List.mem_cons, not_or] at h
    rw [List.cons_append, uncomment, if_neg (Ne.symm h.1), ih _ h.2]
    simp

theorem uncomment_lines (ls : List GoString) (h : ∀ l ∈ ls, (10 : UInt8) ∉ l) :
    uncomment none (ls.flatMap fun line => b! "// " ++ line ++ b! "\n") = some ls := by
  induction ls with
  | nil => rfl
  | cons l ls ih =>
    have e : ((l :: ls).flatMap fun line => b! "// " ++ line ++ b! "\n")
        = 47 :: 47 :: 32 :: (l ++ 10 :: ls.flatMap fun line => b! "// " ++ line ++ b! "\n") := by
      simp
    rw [e, uncomment, uncomment_line _ _ _ (h l (by simp)), ih fun x hx => h x (by simp [hx])]
    rfl

/-- C26: the comment can be read back from what was written: its lines are those of the text. -/
theorem C26_reads_back (c : GoString) (hc : c ≠ []) :
    ∃ lines, uncomment none (writeComment c) = some lines ∧ (∀ l ∈ lines, (10 : UInt8) ∉ l) ∧
      joinWith (b! "\n") lines = c := by
  refine ⟨splitOn newline c, ?_, not_mem_splitOn newline c, joinWith_splitOn newline c⟩
  rw [writeComment, if_pos hc]
  exact uncomment_lines _ (not_mem_splitOn newline c)

/-- C26: an empty comment writes nothing, any other at least one line. -/
theorem C26_empty (c : GoString) : writeComment c = [] ↔ c = [] := by
  constructor
  · intro h
    by_contra hc
    obtain ⟨lines, h1, _, h2⟩ := C26_reads_back c hc
    rw [h] at h1
    simp only [uncomment, Option.some.injEq] at h1
    subst h1
    exact hc h2.symm
  · rintro rfl; rfl

example : writeComment (b! "a */ b\n\nfunc f() {") = b! "// a */ b\n// \n// func f() {\n" := by decide
example : uncomment none (b! "// a */ b\n// \n// func f() {\n")
    = some [b! "a */ b", [], b! "func f() {"] := by decide
example : uncomment none (b! "// a\nb\n") = none := by decide

/-! ## C27 -/

theorem dropWhile_slash {s : GoString} (h : slash ∉ s) (a : GoString) :
    (s ++ a).takeWhile (· != slash) = s ++ a.takeWhile (· != slash) := by
  induction s with
  | nil => rfl
  | cons c s ih =>
    simp only [List.mem_cons, not_or] at h
    have hc : (c != slash) = true := by simpa using Ne.symm h.1
    rw [List.cons_append, List.takeWhile_cons_of_pos (p := (· != slash)) hc, ih h.2, List.cons_append]

theorem takeWhile_slash_all {s : GoString} (h : slash ∉ s) : s.takeWhile (· != slash) = s := by
  simpa using dropWhile_slash h []

/-- What `filepath.Base` leaves alone. -/
theorem pathBase_eq_self (s : GoString) :
    pathBase s = s ↔ (s ≠ [] ∧ slash ∉ s) ∨ s = b! "/" := by
  constructor
  · intro h
    by_cases hs : s = []
    · subst hs; exact absurd h (by decide)
    · unfold pathBase at h
      rw [if_neg hs] at h
      simp only at h
      split at h
      · right; exact h.symm
      · left
        refine ⟨hs, ?_⟩
        rw [← h]
        intro hmem
        rw [List.mem_reverse] at hmem
        have := List.all_eq_true.1 (List.all_takeWhile (p := (· != slash))) _ hmem
        simp at this
  · rintro (⟨hs, hn⟩ | rfl)
    · unfold pathBase
      rw [if_neg hs]
      simp only
      have hr : slash ∉ s.reverse := by simpa using hn
      have hd : s.reverse.dropWhile (· == slash) = s.reverse := by
        cases hrev : s.reverse with
        | nil => rfl
        | cons c r =>
          rw [hrev] at hr
          simp only [List.mem_cons, not_or] at hr
          exact List.dropWhile_cons_of_neg (by simpa using Ne.symm hr.1)
      rw [hd, List.reverse_reverse, takeWhile_slash_all hr, List.reverse_reverse, if_neg hs]
    · decide

theorem filepathExt_go {s : GoString} (hn : slash ∉ s) :
    filepathExt s = b! ".go" ↔ ∃ stem, s = stem ++ b! ".go" := by
  have hr : slash ∉ s.reverse := by simpa using hn
  unfold filepathExt
  simp only [takeWhile_slash_all hr]
  constructor
  · intro h
    split at h
    · have h2 : (s.reverse.takeWhile (· != dot)).reverse = b! "go" := by simpa [dot] using h
      have h3 : s.reverse.takeWhile (· != dot) = b! "og" := by
        rw [← List.reverse_reverse (s.reverse.takeWhile _), h2]; rfl
      have h4 := List.takeWhile_append_dropWhile (p := (· != dot)) (l := s.reverse)
      rw [h3] at h4
      cases hd : s.reverse.dropWhile (· != dot) with
      | nil =>
        rw [hd] at h4
        rename_i hmem
        rw [← h4] at hmem
        exact absurd hmem (by decide)
      | cons c r =>
        have hc : c = dot := by
          have := List.head_dropWhile_not (· != dot) (l := s.reverse) (by rw [hd]; simp)
          simp only [hd, List.head_cons] at this
          simpa using this
        refine ⟨r.reverse, ?_⟩
        rw [← List.reverse_reverse s, ← h4, hd, hc]
        simp
    · exact absurd h (by decide)
  · rintro ⟨stem, rfl⟩
    simp [dot]

/-- C27: `NewGoFile` succeeds exactly for file names without slash that end in `.go`; the new file has
the given package, no elements and no imports. -/
theorem C27_newGoFile (fileName path name : GoString) :
    (∃ stem, slash ∉ stem ∧ fileName = stem ++ b! ".go") ∧
      (∃ f, newGoFile fileName path name = .ok f ∧ f.name = fileName ∧
        f.package = { importPath := path, name := name } ∧ f.elements = [] ∧
        f.imports.importSpecs = [] ∧ f.fileComment = [] ∧ f.packageComment = [] ∧
        f.canonicalImportPath = []) ∨
    (¬ (∃ stem, slash ∉ stem ∧ fileName = stem ++ b! ".go") ∧
      newGoFile fileName path name = .panic) := by
  by_cases h : ∃ stem, slash ∉ stem ∧ fileName = stem ++ b! ".go"
  · left
    refine ⟨h, ?_⟩
    obtain ⟨stem, hs, rfl⟩ := h
    have hn : slash ∉ stem ++ b! ".go" := by
      simp only [List.mem_append, not_or]
      exact ⟨hs, by decide⟩
    refine ⟨{ name := stem ++ b! ".go", packageName := name, imports := newImportsFor path }, ?_,
      rfl, rfl, rfl, rfl, rfl, rfl, rfl⟩
    rw [newGoFile, if_neg, if_neg]
    · rw [not_not]; exact (filepathExt_go hn).2 ⟨stem, rfl⟩
    · rw [not_not]; exact (pathBase_eq_self _).2 (.inl ⟨by simp, hn⟩)
  · right
    refine ⟨h, ?_⟩
    rw [newGoFile]
    by_cases hb : pathBase fileName = fileName
    · rw [if_neg (by rw [not_not]; exact hb), if_pos]
      intro hext
      rcases (pathBase_eq_self _).1 hb with ⟨_, hn⟩ | rfl
      · obtain ⟨stem, rfl⟩ := (filepathExt_go hn).1 hext
        refine h ⟨stem, ?_, rfl⟩
        simp only [List.mem_append, not_or] at hn
        exact hn.1
      · exact absurd hext (by decide)
    · rw [if_pos hb]

example : (newGoFile (b! "a.b.go") (b! "x/y") (b! "y")).bind (fun f => .ok f.package)
    = .ok ⟨b! "x/y", b! "y"⟩ := by decide
example : (newGoFile (b! "d/a.go") (b! "x/y") (b! "y")).bind (fun f => .ok f.name) = .panic := by decide
example : (newGoFile (b! "a.go.txt") (b! "x/y") (b! "y")).bind (fun f => .ok f.name) = .panic := by
  decide

/-! ## C35, C36 -/

theorem qualifyFile_files {fuel : Nat} {p : Ptr} {h h' : Heap} {o : Outcome Unit}
    (hq : qualifyFile fuel p h = (o, h')) (q : Ptr) :
    (h'.files q).map (fun f => (f.package, f.name)) = (h.files q).map (fun f => (f.package, f.name)) := by
  unfold qualifyFile at hq
  split at hq
  · simp only [Prod.mk.injEq] at hq; rw [← hq.2]
  · rename_i f hf
    have hs := steps_fileElems fuel f.elements h f.imports
    rcases hx : QM.forEach (FileElem.qualify fuel) f.elements h f.imports with ⟨o', h1, i'⟩
    rw [hx] at hq hs
    simp only [Prod.mk.injEq] at hq
    rw [← hq.2]
    have hfiles := hs.files
    have hown := hs.evolves.ext.own
    by_cases hqp : q = p
    · subst hqp
      simp only [upd_same, hf, Option.map_some, GoFile.package]
      simp only at hown
      rw [hown]
    · simp only [upd_ne _ _ hqp]
      simp only at hfiles
      rw [hfiles]

theorem renderFile_files {env : Env} {fuel : Nat} {p : Ptr} {h h' : Heap} {o : Outcome GoString}
    (hq : renderFile env fuel p h = (o, h')) (q : Ptr) :
    (h'.files q).map (fun f => (f.package, f.name)) = (h.files q).map (fun f => (f.package, f.name)) := by
  unfold renderFile at hq
  rcases hx : qualifyFile fuel p h with ⟨_ | _ | _, h1⟩ <;> rw [hx] at hq <;>
    simp only [Prod.mk.injEq] at hq <;> rw [← hq.2] <;> exact qualifyFile_files hx q

theorem writeAndClose_session {env : Env} {fuel : Nat} {w : World} {n : Nat} {p : Ptr} {h : Heap}
    {es : List Event} {path : GoString} {ps : List GoString} :
    (∃ h' d c, writeAndClose env fuel w (n + 1) p h (es ++ [.open path none])
        = (.ok none, h', es ++ [.open path none, .write (n + 1) d none, .close (n + 1) c]) ∧
      ∀ q, (h'.files q).map (fun f => (f.package, f.name)) = (h.files q).map (fun f => (f.package, f.name))) ∨
    (∃ r h' evs, writeAndClose env fuel w (n + 1) p h (es ++ [.open path none]) = (r, h', es ++ evs) ∧
      r ≠ .ok none ∧ Session (path :: ps) n evs r) := by
  unfold writeAndClose writeGoFile
  rcases hr : renderFile env fuel p h with ⟨_ | _ | _, h'⟩
  · rename_i text
    simp only [emit]
    cases env.format text with
    | none =>
      right
      exact ⟨_, _, [.open path none, .close (n + 1) _], by simp only [List.append_assoc]; rfl,
        by simp, .formatFails⟩
    | some formatted =>
      cases hw : w.writeAnswer (es ++ [.open path none]) (n + 1) formatted with
      | some e =>
        right
        exact ⟨_, _, [.open path none, .write (n + 1) formatted (some e), .close (n + 1) _],
          by simp only [hw, List.append_assoc]; rfl, by simp, .writeFails⟩
      | none =>
        left
        exact ⟨h', formatted, _, by simp only [hw, List.append_assoc]; rfl, fun q => renderFile_files hr q⟩
  · right
    exact ⟨_, _, [.open path none, .close (n + 1) _], by simp only [List.append_assoc]; rfl,
      by simp, .panics⟩
  · right
    exact ⟨_, _, [.open path none], rfl, by simp, .hangs⟩

/-- C35: whatever the files, the formatter and the answers from outside, `WriteGoFiles` makes the calls
of a `Session` over the files' paths, in order: each writer is closed before anything else is
opened, nothing is opened after a failure, and the error returned is that of the failed call. -/
theorem C35_session (env : Env) (fuel : Nat) (w : World) (ps : List Ptr) (paths : List GoString)
    (h : Heap) (es : List Event)
    (hpaths : List.Forall₂ (fun p path => ∃ f, h.files p = some f ∧
      path = filepathJoin f.package.importPath f.name) ps paths) :
    ∃ evs, (writeGoFiles env fuel w (plainOpen w) ps h es).2.2 = es ++ evs ∧
      Session paths es.length evs (writeGoFiles env fuel w (plainOpen w) ps h es).1 := by
  induction ps generalizing paths h es with
  | nil =>
    cases hpaths
    exact ⟨[], by simp [writeGoFiles], .done⟩
  | cons p ps ih =>
    cases hpaths with
    | cons hp hps =>
      rename_i path paths
      obtain ⟨f, hf, hpath⟩ := hp
      rw [writeGoFiles, hf]
      simp only [plainOpen, ← hpath]
      cases w.openAnswer es path with
      | some e => exact ⟨[.open path (some e)], rfl, .openFails⟩
      | none =>
        have hlen : (es ++ [Event.open path none]).length = es.length + 1 := by simp
        simp only [hlen]
        rcases writeAndClose_session (env := env) (fuel := fuel) (w := w) (p := p) (h := h)
          (path := path) (ps := paths) (es := es) (n := es.length) with
          ⟨h', d, c, he, hfiles⟩ | ⟨r, h', evs, he, hr, hs⟩
        · rw [he]
          simp only
          have hps' : List.Forall₂ (fun p path => ∃ f, h'.files p = some f ∧
              path = filepathJoin f.package.importPath f.name) ps paths := by
            refine hps.imp fun q path hq => ?_
            obtain ⟨g, hg, hpath⟩ := hq
            have := hfiles q
            rw [hg] at this
            cases hg' : h'.files q with
            | none => rw [hg'] at this; simp at this
            | some g' =>
              rw [hg'] at this
              simp only [Option.map_some, Option.some.injEq, Prod.mk.injEq] at this
              exact ⟨g', rfl, by rw [hpath, this.1, this.2]⟩
          obtain ⟨evs, h1, h2⟩ := ih paths h'
            (es ++ [.open path none, .write (es.length + 1) d none, .close (es.length + 1) c]) hps'
          refine ⟨.open path none :: .write (es.length + 1) d none :: .close (es.length + 1) c :: evs,
            ?_, ?_⟩
          · rw [h1]; simp
          · refine .written ?_
            simpa using h2
        · rw [he]
          refine ⟨evs, ?_, ?_⟩
          · match r, hr with
            | .ok none, hr => exact absurd rfl hr
            | .ok (some e), _ => rfl
            | .panic, _ => rfl
            | .hang, _ => rfl
          · match r, hr, hs with
            | .ok none, hr, _ => exact absurd rfl hr
            | .ok (some e), _, hs => exact hs
            | .panic, _, hs => exact hs
            | .hang, _, hs => exact hs

theorem session_writers_gt {paths : List GoString} {n : Nat} {evs : List Event}
    {o : Outcome (Option Err)} (h : Session paths n evs o) :
    ∀ m ≤ n, closes m evs = 0 := by
  induction h with
  | done => intro m _; rfl
  | written _ ih =>
    rename_i n _ _ _ _ _
    intro m hm
    have := ih m (by omega)
    have hne : ¬ (n + 1 = m) := by omega
    simp only [closes, List.countP_cons] at this ⊢
    simp [this, hne]
  | openFails => intro m hm; simp [closes]
  | writeFails =>
    rename_i n _ _ _
    intro m hm
    have hne : ¬ (n + 1 = m) := by omega
    simp [closes, hne]
  | formatFails =>
    rename_i n _ _
    intro m hm
    have hne : ¬ (n + 1 = m) := by omega
    simp [closes, hne]
  | panics =>
    rename_i n _
    intro m hm
    have hne : ¬ (n + 1 = m) := by omega
    simp [closes, hne]
  | hangs => intro m hm; simp [closes]

theorem writersOf_gt : ∀ (evs : List Event) (n : Nat), ∀ m ∈ writersOf n evs, n < m
  | [], n => by simp [writersOf]
  | e :: evs, n => by
    intro m hm
    have key : m ∈ writersOf (n + 1) evs → n < m := fun h => by
      have := writersOf_gt evs (n + 1) m h; omega
    match e, hm with
    | .open _ none, hm =>
      simp only [writersOf, List.mem_cons] at hm
      rcases hm with rfl | hm
      · omega
      · exact key hm
    | .open _ (some _), hm => exact key hm
    | .write _ _ _, hm => exact key hm
    | .close _ _, hm => exact key hm
    | .mkdirAll _ _, hm => exact key hm

/-- C35: unless rendering never ends, every writer that was opened is closed exactly once, and nothing
else is closed. -/
theorem C35_closed_once {paths : List GoString} {n : Nat} {evs : List Event}
    {o : Outcome (Option Err)} (h : Session paths n evs o) (ho : o ≠ .hang) (m : Nat) :
    closes m evs = if m ∈ writersOf n evs then 1 else 0 := by
  induction h with
  | done => simp [closes, writersOf]
  | written hs ih =>
    rename_i n d c evs' o'
    have ih' := ih ho
    simp only [closes, List.countP_cons, writersOf, List.mem_cons] at ih' ⊢
    have h0 := session_writers_gt hs (n + 1) (by omega)
    simp only [closes] at h0
    by_cases hm : m = n + 1
    · subst hm
      simp [h0]
    · have : ¬ (n + 1 = m) := fun h => hm h.symm
      simp [ih', hm, this]
  | openFails => simp [closes, writersOf]
  | writeFails =>
    rename_i n _ _ _
    simp only [closes, List.countP_cons, writersOf, List.mem_cons]
    by_cases hm : m = n + 1
    · simp [hm]
    · have : ¬ (n + 1 = m) := fun h => hm h.symm
      simp [hm, this]
  | formatFails =>
    rename_i n _ _
    simp only [closes, List.countP_cons, writersOf, List.mem_cons]
    by_cases hm : m = n + 1
    · simp [hm]
    · have : ¬ (n + 1 = m) := fun h => hm h.symm
      simp [hm, this]
  | panics =>
    rename_i n _
    simp only [closes, List.countP_cons, writersOf, List.mem_cons]
    by_cases hm : m = n + 1
    · simp [hm]
    · have : ¬ (n + 1 = m) := fun h => hm h.symm
      simp [hm, this]
  | hangs => exact absurd rfl ho

/-- C35: the result is nil exactly if every file was opened and written without error. -/
theorem C35_nil_iff_all_written {paths : List GoString} {n : Nat} {evs : List Event}
    {o : Outcome (Option Err)} (h : Session paths n evs o) :
    o = .ok none ↔
      (evs.filterMap fun e => match e with
        | .open p none => some p
        | _ => none) = paths ∧
      (evs.countP fun e => match e with
        | .write _ _ none => true
        | _ => false) = paths.length := by
  induction h with
  | done => simp
  | written _ ih => simp [ih]
  | openFails => simp
  | writeFails => simp
  | formatFails => simp
  | panics => simp
  | hangs => simp

/-- C36: `WriteGoFile` hands the rendered text to the formatter; if that fails, it returns a
`FormatError` with the text and makes no call; else it makes one `Write` call, with the formatted
text, and returns its error. -/
theorem C36_writeGoFile (env : Env) (fuel : Nat) (w : World) (writer : Nat) (p : Ptr) (h h' : Heap)
    (es : List Event) (text : GoString) (hr : renderFile env fuel p h = (.ok text, h')) :
    (env.format text = none ∧
      writeGoFile env fuel w writer p h es = (.ok (some (.format text)), h', es)) ∨
    ∃ formatted, env.format text = some formatted ∧
      writeGoFile env fuel w writer p h es
        = (.ok ((w.writeAnswer es writer formatted).map .external), h',
          es ++ [.write writer formatted (w.writeAnswer es writer formatted)]) := by
  unfold writeGoFile
  rw [hr]
  simp only [emit]
  cases hf : env.format text with
  | none => exact .inl ⟨rfl, rfl⟩
  | some formatted =>
    refine .inr ⟨formatted, rfl, ?_⟩
    simp only
    cases w.writeAnswer es writer formatted <;> rfl

/-- C36: if rendering panics, `WriteGoFile` panics without having written anything. -/
theorem C36_panic_writes_nothing (env : Env) (fuel : Nat) (w : World) (writer : Nat) (p : Ptr)
    (h : Heap) (es : List Event) (hr : ∀ text, (renderFile env fuel p h).1 ≠ .ok text) :
    (writeGoFile env fuel w writer p h es).2.2 = es ∧
      ∀ r, (writeGoFile env fuel w writer p h es).1 ≠ .ok r := by
  unfold writeGoFile
  rcases hx : renderFile env fuel p h with ⟨_ | _ | _, h1⟩
  · rw [hx] at hr; exact absurd rfl (hr _)
  · simp
  · simp

/-- An environment for examples: plain printing, templates without effect, and a formatter that
refuses empty text. -/
def exEnv : Env where
  isPrint _ := true
  fmtOther _ f _ := f
  exec _ _ _ := some []
  format s := if s = [] then none else some s

/-- Two empty files, at addresses 0 and 1. -/
def exFiles : Heap where
  files p := if p = 0 then some { name := b! "a.go", packageName := b! "p", imports := newImportsFor (b! "x/p") }
    else if p = 1 then some { name := b! "b.go", packageName := b! "q", imports := newImportsFor (b! "x/q") }
    else none

/-- Nothing fails but the third call. -/
def exWorld : World where
  openAnswer es _ := if es.length = 3 then some 7 else none
  writeAnswer _ _ _ := none
  mkdirAnswer _ _ := none

example : (writeGoFiles exEnv 1 exWorld (plainOpen exWorld) [0, 1, 0] exFiles []).2.2
    = [.open (b! "x/p/a.go") none, .write 1 (b! "package p\n\n") none, .close 1 none,
       .open (b! "x/q/b.go") (some 7)] := by decide
example : (writeGoFiles exEnv 1 exWorld (plainOpen exWorld) [0, 1, 0] exFiles []).1
    = .ok (some (.external 7)) := by decide

/-! ## C37 -/

/-- The intended behaviour of `WriteGoFilesToGoPath`: for a non-empty GOPATH it is
`WriteGoFilesToFileSystem` with the first entry. -/
def GoPathFirstEntry : Prop := ∀ (env : Env) (fuel : Nat) (w : World) (entry rest : GoString)
    (ps : List Ptr) (h : Heap) (es : List Event), (58 : UInt8) ∉ entry →
    ∀ gopath, (gopath = entry ∧ entry ≠ [] ∨ gopath = entry ++ b! ":" ++ rest) →
    writeGoFilesToGoPath env fuel w gopath ps h es = writeGoFilesToFileSystem env fuel w entry ps h es

/-- C37, as far as it holds: with an empty GOPATH, an error is returned and nothing is done. Missing:
the behaviour for a non-empty GOPATH (`GoPathFirstEntry`), which does not hold, see
`C37_always_fails` and `C37_fails`. -/
theorem C37_empty_gopath_partial (env : Env) (fuel : Nat) (w : World) (ps : List Ptr) (h : Heap)
    (es : List Event) :
    writeGoFilesToGoPath env fuel w [] ps h es = (.ok (some .gopath), h, es) := rfl

/-- C37: the test in model.go:269 is inverted, so that every GOPATH is reported as empty. -/
theorem C37_always_fails (env : Env) (fuel : Nat) (w : World) (gopath : GoString) (ps : List Ptr)
    (h : Heap) (es : List Event) :
    writeGoFilesToGoPath env fuel w gopath ps h es = (.ok (some .gopath), h, es) := by
  unfold writeGoFilesToGoPath
  split
  · rfl
  · rw [if_pos]
    simp [length_splitOn]

/-- C37 fails: already for no files at all. -/
theorem C37_fails : ¬ GoPathFirstEntry := by
  intro hall
  have := hall exEnv 1 exWorld (b! "/go") [] [] exFiles [] (by decide) (b! "/go")
    (.inl ⟨rfl, by decide⟩)
  rw [C37_always_fails] at this
  have h1 : writeGoFilesToFileSystem exEnv 1 exWorld (b! "/go") [] exFiles [] = (.ok none, exFiles, []) :=
    rfl
  rw [h1] at this
  simp at this

/-! ## C38 -/

theorem clean_plain (rooted : Bool) (es : List GoString) (st : List GoString)
    (h : ∀ e ∈ es, e ≠ b! "..") :
    es.foldl (cleanStep rooted) st
      = (es.filter fun e => decide (e ≠ []) && decide (e ≠ b! ".")).reverse ++ st := by
  induction es generalizing st with
  | nil => rfl
  | cons e es ih =>
    rw [List.foldl_cons, ih _ fun x hx => h x (by simp [hx])]
    unfold cleanStep
    by_cases he : e = [] ∨ e = b! "."
    · rw [if_pos he, List.filter_cons_of_neg]
      rcases he with rfl | rfl <;> decide
    · rw [if_neg he, if_neg (h e (by simp)), List.filter_cons_of_pos]
      · simp
      · simp only [not_or] at he
        simp [he.1, he.2]

/-- A file name that `NewGoFile` accepts. -/
def GoFileName (name : GoString) : Prop := ∃ stem, slash ∉ stem ∧ name = stem ++ b! ".go"

theorem GoFileName.facts {name : GoString} (h : GoFileName name) :
    slash ∉ name ∧ name ≠ [] ∧ name ≠ b! "." ∧ name ≠ b! ".." := by
  obtain ⟨stem, hs, rfl⟩ := h
  refine ⟨?_, by simp, ?_, ?_⟩
  · simp only [List.mem_append, not_or]; exact ⟨hs, by decide⟩
  · intro h; have := congrArg List.getLast? h; simp at this
  · intro h; have := congrArg List.getLast? h; simp at this

theorem pathElems_of_name {name : GoString} (h : GoFileName name) : pathElems name = [name] := by
  obtain ⟨h1, h2, h3, _⟩ := h.facts
  simp [pathElems, splitOn_of_not_mem h1, h2, h3]

theorem pathElems_append (a b : GoString) :
    pathElems (a ++ slash :: b) = pathElems a ++ pathElems b := by
  simp [pathElems, splitOn_append]

theorem not_rooted_append {a b : GoString} (ha : a ≠ []) (h : a.head? ≠ some slash) :
    (a ++ b).head? ≠ some slash := by
  cases a with
  | nil => exact absurd rfl ha
  | cons c a => simpa using h

/-- C38: for a relative package path without `..`, the path given to the open function has the
elements of the package path followed by the file name; so it stays below the directory it is
joined to. -/
theorem C38_path_elements {pkgPath name : GoString} (hn : GoFileName name)
    (hrel : pkgPath.head? ≠ some slash) (hdd : ∀ e ∈ splitOn slash pkgPath, e ≠ b! "..") :
    filepathJoin pkgPath name = pathOf (pathElems pkgPath ++ [name]) := by
  obtain ⟨h1, h2, h3, h4⟩ := hn.facts
  have hclean : ∀ p : GoString, p.head? ≠ some slash → (∀ e ∈ splitOn slash p, e ≠ b! "..") →
      pathElems p ≠ [] → filepathClean p = pathOf (pathElems p) := by
    intro p hp hd hne
    unfold filepathClean
    simp only [hp, decide_false, clean_plain _ _ _ hd, List.append_nil, List.reverse_reverse]
    rw [if_neg (by simp), if_neg]
    · rfl
    · intro hj
      have h5 := splitOn_joinWith slash (pathElems p) hne (fun e he =>
        not_mem_splitOn slash p e (List.mem_filter.1 he).1)
      unfold pathElems at h5
      rw [hj] at h5
      have h6 : ([] : GoString) ∈ (splitOn slash p).filter
          (fun e => decide (e ≠ []) && decide (e ≠ b! ".")) := by
        rw [← h5]; simp [splitOn]
      have := (List.mem_filter.1 h6).2
      simp at this
  unfold filepathJoin
  by_cases hp : pkgPath = []
  · subst hp
    rw [if_neg (by simp), if_pos h2, hclean]
    · rw [pathElems_of_name hn]; rfl
    · intro hh
      cases name with
      | nil => exact absurd rfl h2
      | cons c s =>
        simp only [List.head?_cons, Option.some.injEq] at hh
        exact h1 (by simp [hh])
    · rw [splitOn_of_not_mem h1]; simpa using h4
    · rw [pathElems_of_name hn]; simp
  · rw [if_pos hp]
    have e : pkgPath ++ [slash] ++ name = pkgPath ++ slash :: name := by simp
    rw [e, hclean]
    · rw [pathElems_append, pathElems_of_name hn]
    · exact not_rooted_append hp hrel
    · rw [splitOn_append, splitOn_of_not_mem h1]
      intro x hx
      simp only [List.mem_append, List.mem_singleton] at hx
      rcases hx with hx | rfl
      · exact hdd x hx
      · exact h4
    · rw [pathElems_append, pathElems_of_name hn]; simp

theorem foldl_last (rooted : Bool) (es : List GoString) (st : List GoString) {name : GoString}
    (h2 : name ≠ []) (h3 : name ≠ b! ".") (h4 : name ≠ b! "..") :
    (es ++ [name]).foldl (cleanStep rooted) st = name :: es.foldl (cleanStep rooted) st := by
  rw [List.foldl_append, List.foldl_cons, List.foldl_nil]
  generalize es.foldl (cleanStep rooted) st = st'
  unfold cleanStep
  rw [if_neg (by simp [h2, h3]), if_neg h4]

theorem joinWith_append_last (sep : GoString) (es : List GoString) (name : GoString) :
    ∃ dir, joinWith sep (es ++ [name]) = dir ++ name ∧ (dir = [] ∨ ∃ d, dir = d ++ sep) := by
  induction es with
  | nil => exact ⟨[], rfl, .inl rfl⟩
  | cons e es ih =>
    obtain ⟨dir, h, hd⟩ := ih
    refine ⟨e ++ sep ++ dir, ?_, .inr ?_⟩
    · rw [List.cons_append, joinWith_cons (by simp), h]; simp
    · rcases hd with rfl | ⟨d, rfl⟩
      · exact ⟨e, by simp⟩
      · exact ⟨e ++ sep ++ d, by simp⟩

/-- C38: whatever the package path, the last element of the path given to the open function is the
file name. -/
theorem C38_last_element {name : GoString} (hn : GoFileName name) (pkgPath : GoString) :
    ∃ dir, filepathJoin pkgPath name = dir ++ name ∧ (dir = [] ∨ ∃ d, dir = d ++ [slash]) := by
  obtain ⟨h1, h2, h3, h4⟩ := hn.facts
  have key : ∀ (p : GoString) (es : List GoString), splitOn slash p = es ++ [name] →
      ∃ dir, filepathClean p = dir ++ name ∧ (dir = [] ∨ ∃ d, dir = d ++ [slash]) := by
    intro p es hp
    unfold filepathClean
    simp only [hp]
    rw [foldl_last _ _ _ h2 h3 h4, List.reverse_cons]
    obtain ⟨dir, hj, hd⟩ := joinWith_append_last [slash]
      ((es.foldl (cleanStep (decide (p.head? = some slash))) []).reverse) name
    rw [hj]
    by_cases hr : p.head? = some slash
    · simp only [hr, decide_true, if_true]
      refine ⟨slash :: dir, rfl, .inr ?_⟩
      rcases hd with rfl | ⟨d, rfl⟩
      · exact ⟨[], rfl⟩
      · exact ⟨slash :: d, rfl⟩
    · simp only [hr, decide_false]
      rw [if_neg (by simp), if_neg (by simp [h2])]
      exact ⟨dir, rfl, hd⟩
  unfold filepathJoin
  by_cases hp : pkgPath = []
  · subst hp
    rw [if_neg (by simp), if_pos h2]
    exact key name [] (by rw [splitOn_of_not_mem h1]; rfl)
  · rw [if_pos hp]
    refine key _ (splitOn slash pkgPath) ?_
    have e : pkgPath ++ [slash] ++ name = pkgPath ++ slash :: name := by simp
    rw [e, splitOn_append, splitOn_of_not_mem h1]

/-- C38: for a package path in normal form the path is the package path, a slash and the name. -/
theorem C38_clean_package_path {elems : List GoString} {name : GoString} (hn : GoFileName name)
    (hne : elems ≠ []) (h : ∀ e ∈ elems, slash ∉ e ∧ e ≠ [] ∧ e ≠ b! "." ∧ e ≠ b! "..") :
    filepathJoin (pathOf elems) name = pathOf elems ++ [slash] ++ name := by
  have hs : splitOn slash (pathOf elems) = elems :=
    splitOn_joinWith slash elems hne fun e he => (h e he).1
  have hpe : pathElems (pathOf elems) = elems := by
    unfold pathElems
    rw [hs, List.filter_eq_self]
    intro e he
    simp [(h e he).2.1, (h e he).2.2.1]
  rw [C38_path_elements hn, hpe]
  · clear hs hpe h
    unfold pathOf
    induction elems with
    | nil => exact absurd rfl hne
    | cons e es ih =>
      cases es with
      | nil => simp [joinWith]
      | cons e' es =>
        rw [List.cons_append, joinWith_cons (by simp), ih (by simp),
          joinWith_cons (p := e) (ps := e' :: es) (by simp)]
        simp
  · cases elems with
    | nil => exact absurd rfl hne
    | cons e es =>
      have he := h e (by simp)
      cases e with
      | nil => exact absurd rfl he.2.1
      | cons c s =>
        have : c ≠ slash := fun hc => he.1 (by simp [hc])
        cases es with
        | nil => simpa [pathOf, joinWith] using this
        | cons e' es => simpa [pathOf, joinWith] using this
  · rw [hs]; intro e he; exact (h e he).2.2.2

/-- The elements that `filepath.Clean` keeps. -/
theorem cleanStep_elems (rooted : Bool) (es : List GoString) (st : List GoString)
    (hes : ∀ e ∈ es, slash ∉ e) (hst : ∀ e ∈ st, slash ∉ e ∧ e ≠ [] ∧ e ≠ b! ".") :
    ∀ e ∈ es.foldl (cleanStep rooted) st, slash ∉ e ∧ e ≠ [] ∧ e ≠ b! "." := by
  induction es generalizing st with
  | nil => exact hst
  | cons e es ih =>
    rw [List.foldl_cons]
    refine ih _ (fun x hx => hes x (by simp [hx])) ?_
    have he := hes e (by simp)
    unfold cleanStep
    by_cases h1 : e = [] ∨ e = b! "."
    · rw [if_pos h1]; exact hst
    · rw [if_neg h1]
      simp only [not_or] at h1
      by_cases h2 : e = b! ".."
      · rw [if_pos h2]
        cases st with
        | nil =>
          cases rooted with
          | true => simp
          | false =>
            intro x hx
            simp only [Bool.false_eq_true, if_false, List.mem_singleton] at hx
            subst hx; exact ⟨he, h1⟩
        | cons top below =>
          by_cases h3 : top = b! ".."
          · simp only [h3, if_true]
            intro x hx
            simp only [List.mem_cons] at hx
            rcases hx with rfl | rfl | hx
            · exact ⟨he, h1⟩
            · decide
            · exact hst x (by simp [hx])
          · simp only [h3, if_false]
            exact fun x hx => hst x (by simp [hx])
      · rw [if_neg h2]
        intro x hx
        simp only [List.mem_cons] at hx
        rcases hx with rfl | hx
        · exact ⟨he, h1⟩
        · exact hst x hx

theorem joinWith_append (sep : GoString) {a b : List GoString} (ha : a ≠ []) (hb : b ≠ []) :
    joinWith sep (a ++ b) = joinWith sep a ++ sep ++ joinWith sep b := by
  induction a with
  | nil => exact absurd rfl ha
  | cons x a ih =>
    cases a with
    | nil => rw [List.singleton_append, joinWith_cons hb]; simp [joinWith]
    | cons y a =>
      rw [List.cons_append, joinWith_cons (by simp), ih (by simp),
        joinWith_cons (p := x) (ps := y :: a) (by simp)]
      simp

/-- C38: for a relative package path without `..`, the file opened by `WriteGoFilesToFileSystem` is,
whatever the root, the path inside of the (cleaned) root directory. -/
theorem C38_below_root {pkgPath name : GoString} (root : GoString) (hn : GoFileName name)
    (hrel : pkgPath.head? ≠ some slash) (hdd : ∀ e ∈ splitOn slash pkgPath, e ≠ b! "..") :
    filepathJoin root (filepathJoin pkgPath name) =
      if filepathClean root = b! "." then filepathJoin pkgPath name
      else if filepathClean root = b! "/" then slash :: filepathJoin pkgPath name
      else filepathClean root ++ [slash] ++ filepathJoin pkgPath name := by
  rw [C38_path_elements hn hrel hdd]
  obtain ⟨h1, h2, h3, h4⟩ := hn.facts
  generalize hE : pathElems pkgPath ++ [name] = E
  have hE0 : E ≠ [] := by rw [← hE]; simp
  have hplain : ∀ e ∈ E, slash ∉ e ∧ e ≠ [] ∧ e ≠ b! "." ∧ e ≠ b! ".." := by
    intro e he
    rw [← hE, List.mem_append, List.mem_singleton] at he
    rcases he with he | rfl
    · unfold pathElems at he
      obtain ⟨ha, hb⟩ := List.mem_filter.1 he
      simp only [ne_eq, Bool.and_eq_true, decide_eq_true_eq] at hb
      exact ⟨not_mem_splitOn slash pkgPath e ha, hb.1, hb.2, hdd e ha⟩
    · exact ⟨h1, h2, h3, h4⟩
  have hsE : splitOn slash (pathOf E) = E := splitOn_joinWith slash E hE0 fun e he => (hplain e he).1
  have hfil : E.filter (fun e => decide (e ≠ []) && decide (e ≠ b! ".")) = E := by
    rw [List.filter_eq_self]
    intro e he
    simp [(hplain e he).2.1, (hplain e he).2.2.1]
  have hp0 : pathOf E ≠ [] := by
    intro h0
    rw [h0] at hsE
    have : ([] : GoString) ∈ E := by rw [← hsE]; simp [splitOn]
    exact (hplain _ this).2.1 rfl
  have hprel : (pathOf E).head? ≠ some slash := by
    intro hh
    cases hpe : pathOf E with
    | nil => exact hp0 hpe
    | cons c t =>
      rw [hpe] at hh hsE
      simp only [List.head?_cons, Option.some.injEq] at hh
      subst hh
      have := splitOn_append slash [] t
      rw [List.nil_append, hsE] at this
      have : ([] : GoString) ∈ E := by rw [this]; simp [splitOn]
      exact (hplain _ this).2.1 rfl
  have hcp : filepathClean (pathOf E) = pathOf E := by
    unfold filepathClean
    simp only [hprel, decide_false, hsE, clean_plain _ _ _ fun e he => (hplain e he).2.2.2, hfil,
      List.append_nil, List.reverse_reverse]
    rw [if_neg (by simp), if_neg (show joinWith [slash] E ≠ [] from hp0)]
    rfl
  by_cases hr0 : root = []
  · subst hr0
    rw [show filepathClean [] = b! "." by decide, if_pos rfl, filepathJoin, if_neg (by simp),
      if_pos hp0, hcp]
  · rw [filepathJoin, if_pos hr0]
    have e : root ++ [slash] ++ pathOf E = root ++ slash :: pathOf E := by simp
    have hhead : (root ++ slash :: pathOf E).head? = root.head? := by
      cases root with
      | nil => exact absurd rfl hr0
      | cons c t => rfl
    rw [e]
    unfold filepathClean
    simp only [hhead, splitOn_append, hsE, List.foldl_append,
      clean_plain _ _ _ fun e he => (hplain e he).2.2.2, hfil, List.reverse_append,
      List.reverse_reverse]
    generalize hR : ((splitOn slash root).foldl (cleanStep (decide (root.head? = some slash))) []) = R
    have hRe := cleanStep_elems (decide (root.head? = some slash)) (splitOn slash root) []
      (not_mem_splitOn slash root) (by simp)
    rw [hR] at hRe
    have hRr : ∀ e ∈ R.reverse, slash ∉ e ∧ e ≠ [] ∧ e ≠ b! "." := fun e he => hRe e (by simpa using he)
    generalize R.reverse = Q at hRr
    by_cases hQ : Q = []
    · subst hQ
      by_cases hroot : root.head? = some slash
      · have : ¬ slash = (46 : UInt8) := by decide
        simp [hroot, joinWith, pathOf, this]
      · simp only [hroot, decide_false, joinWith, List.nil_append]
        rw [if_neg (by simp), if_neg (show joinWith [slash] E ≠ [] from hp0)]
        rfl
    · have hsQ : splitOn slash (joinWith [slash] Q) = Q :=
        splitOn_joinWith slash Q hQ fun e he => (hRr e he).1
      have hj0 : joinWith [slash] Q ≠ [] := by
        intro h0
        rw [h0] at hsQ
        have : ([] : GoString) ∈ Q := by rw [← hsQ]; simp [splitOn]
        exact (hRr _ this).2.1 rfl
      have hj1 : joinWith [slash] Q ≠ b! "." := by
        intro h0
        rw [h0] at hsQ
        have : b! "." ∈ Q := by rw [← hsQ]; decide
        exact (hRr _ this).2.2 rfl
      rw [joinWith_append _ hQ hE0]
      by_cases hroot : root.head? = some slash
      · simp only [hroot, decide_true, if_true]
        rw [if_neg (by simp [hj0]), if_neg (by simpa using hj0)]
        simp [pathOf]
      · simp only [hroot, decide_false]
        simp only [Bool.false_eq_true, if_false]
        rw [if_neg hj0, if_neg hj1, if_neg (by simp), if_neg]
        · rfl
        · intro h0
          rw [h0] at hsQ
          have : ([] : GoString) ∈ Q := by rw [← hsQ]; decide
          exact (hRr _ this).2.1 rfl

/-- C38: the file system variant opens, below the root, the path that `WriteGoFiles` computed: the
path handed to `OpenFile` is `Join(root, path)`, and its directory is created first. -/
theorem C38_file_system (w : World) (root path : GoString) (es : List Event) :
    (∃ e, fileSystemOpen w root es path
        = (some e, es ++ [.mkdirAll (filepathDir (filepathJoin root path)) (some e)])) ∨
    ∃ a, fileSystemOpen w root es path
        = (a, es ++ [.mkdirAll (filepathDir (filepathJoin root path)) none,
            .open (filepathJoin root path) a]) := by
  unfold fileSystemOpen
  simp only
  cases w.mkdirAnswer es (filepathDir (filepathJoin root path)) with
  | some e => exact .inl ⟨e, rfl⟩
  | none =>
    refine .inr ⟨w.openAnswer (es ++ [.mkdirAll (filepathDir (filepathJoin root path)) none])
      (filepathJoin root path), ?_⟩
    simp [plainOpen]

example : filepathJoin (b! "github.com/x//y/./z") (b! "a.go") = b! "github.com/x/y/z/a.go" := by decide
example : filepathJoin (b! "../x") (b! "a.go") = b! "../x/a.go" := by decide
example : filepathJoin (b! "/x/../../y") (b! "a.go") = b! "/y/a.go" := by decide
example : filepathDir (filepathJoin (b! "/go/src") (b! "x/y/a.go")) = b! "/go/src/x/y" := by decide

end Gopoet
