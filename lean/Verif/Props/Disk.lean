import Verif.Spec.Disk
import Verif.Props.Output
import Mathlib.Tactic.ByContra
/-!
# Property C58: what is on the disk after files were written
-/

namespace Gopoet

/-! ## C58 -/

/-- What a run leaves on the disk, if no `Close` fails (`fine`), and what it may leave if one does. -/
inductive Leaves (env : Env) (fuel : Nat) (fine : Prop) :
    List Ptr → List GoString → Heap → Disk → Outcome (Option Err) → Disk → Prop
  | done {h d} : Leaves env fuel fine [] [] h d (.ok none) d
  | written {p ps path paths h h1 d text out c r d'} : renderFile env fuel p h = (.ok text, h1) →
      env.format text = some out → (fine → c = out) →
      Leaves env fuel fine ps paths h1 (d.put path c) r d' →
      Leaves env fuel fine (p :: ps) (path :: paths) h d r d'
  | notOpened {p ps path paths h d e} :
      Leaves env fuel fine (p :: ps) (path :: paths) h d (.ok (some (.external e))) d
  | writeFails {p ps path paths h d e c} :
      Leaves env fuel fine (p :: ps) (path :: paths) h d (.ok (some (.external e))) (d.put path c)
  | formatFails {p ps path paths h h1 d text c} : renderFile env fuel p h = (.ok text, h1) →
      env.format text = none → (fine → c = []) →
      Leaves env fuel fine (p :: ps) (path :: paths) h d (.ok (some (.format text))) (d.put path c)
  | panics {p ps path paths h d c} : (fine → c = []) →
      Leaves env fuel fine (p :: ps) (path :: paths) h d .panic (d.put path c)
  | hangs {p ps path paths h d} :
      Leaves env fuel fine (p :: ps) (path :: paths) h d .hang (d.put path [])

theorem put_put (d : Disk) (path a b : GoString) : (d.put path a).put path b = d.put path b := by
  funext q; simp only [Disk.put]; split <;> rfl

/-- The paths of the files. -/
def FullPaths (root : GoString) (h : Heap) (ps : List Ptr) (paths : List GoString) : Prop :=
  List.Forall₂ (fun p path => ∃ f, h.files p = some f ∧
    path = filepathJoin root (filepathJoin f.package.importPath f.name)) ps paths

theorem fullPaths_of_files {root : GoString} {h h' : Heap} {ps : List Ptr} {paths : List GoString}
    (hfiles : ∀ q, (h'.files q).map (fun f => (f.package, f.name))
      = (h.files q).map (fun f => (f.package, f.name)))
    (hp : FullPaths root h ps paths) : FullPaths root h' ps paths := by
  refine hp.imp fun q path hq => ?_
  obtain ⟨g, hg, hpath⟩ := hq
  have := hfiles q
  rw [hg] at this
  cases hg' : h'.files q with
  | none => rw [hg'] at this; simp at this
  | some g' =>
    rw [hg'] at this
    simp only [Option.map_some, Option.some.injEq, Prod.mk.injEq] at this
    exact ⟨g', rfl, by rw [hpath, this.1, this.2]⟩

/-- Closing the file at `path`, opened last. -/
theorem after_close {m n : Nat} {writers : Nat → Option GoString} {path content : GoString} {d d' : Disk}
    {a : Option Nat} {es : List Event} {P : GoString → Prop}
    (hw : writers m = some path) (ha : a = none → P content) (he : ∀ e c, a = some e → P c)
    (h : Disk.After n writers (d.put path content) (.close m a :: es) d') :
    ∃ c, P c ∧ Disk.After (n + 1) writers (d.put path c) es d' := by
  cases h with
  | close h => exact ⟨content, ha rfl, h⟩
  | closeFails h1 h2 =>
    rw [hw] at h1
    cases h1
    rw [put_put] at h2
    exact ⟨_, he _ _ rfl, h2⟩

theorem leaves_aux (env : Env) (fuel : Nat) (w : World) (root : GoString) (fine : Prop) :
    ∀ (ps : List Ptr) (paths : List GoString) (h : Heap) (es : List Event),
    FullPaths root h ps paths →
    ∃ evs, (writeGoFilesToFileSystem env fuel w root ps h es).2.2 = es ++ evs ∧
      ((fine → ClosesFine evs) → ∀ writers d d', Disk.After es.length writers d evs d' →
        Leaves env fuel fine ps paths h d (writeGoFilesToFileSystem env fuel w root ps h es).1 d') := by
  intro ps
  induction ps with
  | nil =>
    intro paths h es hp
    cases hp
    refine ⟨[], by simp [writeGoFilesToFileSystem, writeGoFiles], fun _ writers d d' ha => ?_⟩
    cases ha
    exact .done
  | cons p ps ih =>
    intro paths h es hp
    cases hp with
    | cons hpp hps =>
    rename_i path paths
    obtain ⟨f, hf, hpath⟩ := hpp
    have ih := ih paths
    unfold writeGoFilesToFileSystem at ih ⊢
    rw [writeGoFiles, hf]
    simp only [fileSystemOpen, ← hpath]
    cases hmk : w.mkdirAnswer es (filepathDir path) with
    | some e =>
      refine ⟨[.mkdirAll (filepathDir path) (some e)], rfl, fun _ writers d d' ha => ?_⟩
      cases ha with
      | mkdirAll ha => cases ha; exact .notOpened
    | none =>
      simp only [plainOpen]
      generalize hes1 : es ++ [Event.mkdirAll (filepathDir path) none] = es1
      cases hop : w.openAnswer es1 path with
      | some e =>
        refine ⟨[.mkdirAll (filepathDir path) none, .open path (some e)], by simp [← hes1],
          fun _ writers d d' ha => ?_⟩
        cases ha with
        | mkdirAll ha => cases ha with | openFails ha => cases ha; exact .notOpened
      | none =>
        simp only
        have hlen : (es1 ++ [Event.open path none]).length = es.length + 2 := by simp [← hes1]
        rw [hlen]
        unfold writeAndClose writeGoFile
        -- from the calls up to `Open` to the state before the next call
        have opened : ∀ {evs : List Event} {writers d d'},
            Disk.After es.length writers d (.mkdirAll (filepathDir path) none :: .open path none :: evs) d' →
            ∃ writers', writers' (es.length + 2) = some path ∧
              Disk.After (es.length + 2) writers' (d.put path []) evs d' := by
          intro evs writers d d' ha
          cases ha with
          | mkdirAll ha => cases ha with
            | opens ha => exact ⟨_, by simp, ha⟩
        have fineAt : ∀ {evs : List Event} {k : Nat} {a : Option Nat}, (fine → ClosesFine evs) →
            Event.close k a ∈ evs → ∀ (e : Nat) (P : Prop), a = some e → (fine → P) := by
          intro evs k a hfine hm e P hae hf
          subst hae
          exact absurd hm (hfine hf k e)
        rcases hr : renderFile env fuel p h with ⟨text | _ | _, h1⟩
        · simp only [emit]
          cases hfmt : env.format text with
          | none =>
            simp only
            generalize hca : w.closeAnswer _ _ = a
            refine ⟨[.mkdirAll (filepathDir path) none, .open path none, .close (es.length + 2) a],
              by simp [← hes1], fun hfine writers d d' ha => ?_⟩
            obtain ⟨wr, hwr, ha⟩ := opened ha
            obtain ⟨c, hc, ha⟩ := after_close (P := fun c => fine → c = []) hwr (fun _ _ => rfl)
              (fun e c hae => fineAt (k := es.length + 2) hfine (by simp) e _ hae) ha
            cases ha
            exact .formatFails hr hfmt hc
          | some out =>
            simp only
            cases hwa : w.writeAnswer (es1 ++ [Event.open path none]) (es.length + 2) out with
            | some e =>
              simp only
              generalize hca : w.closeAnswer _ _ = a
              refine ⟨[.mkdirAll (filepathDir path) none, .open path none,
                .write (es.length + 2) out (some e), .close (es.length + 2) a],
                by simp [← hes1], fun hfine writers d d' ha => ?_⟩
              obtain ⟨wr, hwr, ha⟩ := opened ha
              cases ha with
              | writeFails h1 ha =>
                rw [hwr] at h1
                cases h1
                rw [put_put] at ha
                obtain ⟨c, _, ha⟩ := after_close (P := fun _ => True) hwr (fun _ => trivial)
                  (fun _ _ _ => trivial) ha
                cases ha
                exact .writeFails
            | none =>
              simp only
              generalize hca : w.closeAnswer _ _ = a
              obtain ⟨evs, h2, h3⟩ := ih h1
                (es1 ++ [Event.open path none] ++ [Event.write (es.length + 2) out none] ++
                  [Event.close (es.length + 2) a])
                (fullPaths_of_files (fun q => renderFile_files hr q) hps)
              refine ⟨.mkdirAll (filepathDir path) none :: .open path none ::
                .write (es.length + 2) out none :: .close (es.length + 2) a :: evs, ?_, ?_⟩
              · rw [h2]; simp [← hes1]
              · intro hfine writers d d' ha
                obtain ⟨wr, hwr, ha⟩ := opened ha
                cases ha with
                | write h4 h5 ha =>
                  rw [hwr] at h4
                  cases h4
                  simp only [Disk.put, if_true, Option.some.injEq] at h5
                  subst h5
                  rw [put_put, List.nil_append] at ha
                  obtain ⟨c, hc, ha⟩ := after_close (P := fun c => fine → c = out) hwr (fun _ _ => rfl)
                    (fun e c hae => fineAt (k := es.length + 2) hfine (by simp) e _ hae) ha
                  refine .written hr hfmt hc (h3 ?_ wr _ _ ?_)
                  · intro hf k e hm
                    exact hfine hf k e (by simp [hm])
                  · have hl : (es1 ++ [Event.open path none] ++ [Event.write (es.length + 2) out none] ++
                      [Event.close (es.length + 2) a]).length = es.length + 2 + 1 + 1 := by
                      simp [← hes1]
                    rw [hl]; exact ha
        · simp only
          generalize hca : w.closeAnswer _ _ = a
          refine ⟨[.mkdirAll (filepathDir path) none, .open path none, .close (es.length + 2) a],
            by simp [← hes1], fun hfine writers d d' ha => ?_⟩
          obtain ⟨wr, hwr, ha⟩ := opened ha
          obtain ⟨c, hc, ha⟩ := after_close (P := fun c => fine → c = []) hwr (fun _ _ => rfl)
            (fun e c hae => fineAt (k := es.length + 2) hfine (by simp) e _ hae) ha
          cases ha
          exact .panics hc
        · simp only
          refine ⟨[.mkdirAll (filepathDir path) none, .open path none], by simp [← hes1],
            fun hfine writers d d' ha => ?_⟩
          obtain ⟨wr, hwr, ha⟩ := opened ha
          cases ha
          exact .hangs

theorem leaves_others {env : Env} {fuel : Nat} {fine : Prop} {ps : List Ptr} {paths : List GoString}
    {h : Heap} {d d' : Disk} {r : Outcome (Option Err)} (hl : Leaves env fuel fine ps paths h d r d')
    {q : GoString} (hq : q ∉ paths) : d' q = d q := by
  have put : ∀ (d : Disk) (path c : GoString), q ≠ path → d.put path c q = d q := by
    intro d path c h; simp [Disk.put, h]
  induction hl with
  | done => rfl
  | written _ _ _ _ ih =>
    simp only [List.mem_cons, not_or] at hq
    rw [ih hq.2, put _ _ _ hq.1]
  | notOpened => rfl
  | writeFails | formatFails | panics | hangs =>
    simp only [List.mem_cons, not_or] at hq
    exact put _ _ _ hq.1

theorem leaves_done {env : Env} {fuel : Nat} {fine : Prop} {ps : List Ptr} {paths : List GoString}
    {h : Heap} {d d' : Disk} {r : Outcome (Option Err)} (hl : Leaves env fuel fine ps paths h d r d')
    (hfine : fine) (hr : r = .ok none) :
    ∃ outs h', RenderedInTurn env fuel h ps outs h' ∧ d' = d.putAll paths outs := by
  induction hl with
  | done => exact ⟨[], _, .nil, rfl⟩
  | written h1 h2 hc _ ih =>
    obtain ⟨outs, h', ho, hd⟩ := ih hr
    cases hc hfine
    exact ⟨_, _, .cons h1 h2 ho, hd⟩
  | notOpened | writeFails | formatFails | panics | hangs => simp at hr

theorem leaves_stopped {env : Env} {fuel : Nat} {fine : Prop} {ps : List Ptr} {paths : List GoString}
    {h : Heap} {d d' : Disk} {r : Outcome (Option Err)} (hl : Leaves env fuel fine ps paths h d r d')
    (hfine : fine) (hr : r ≠ .ok none) :
    ∃ ps₁ p ps₂ paths₁ path paths₂ outs h₁, ps = ps₁ ++ p :: ps₂ ∧ paths = paths₁ ++ path :: paths₂ ∧
      ps₁.length = paths₁.length ∧ RenderedInTurn env fuel h ps₁ outs h₁ ∧
      ((∃ e, r = .ok (some (.external e))) ∧ d' = d.putAll paths₁ outs ∨
        (∃ e c, r = .ok (some (.external e)) ∧ d' = (d.putAll paths₁ outs).put path c) ∨
        (∃ text h₂, r = .ok (some (.format text)) ∧ renderFile env fuel p h₁ = (.ok text, h₂) ∧
          env.format text = none ∧ d' = (d.putAll paths₁ outs).put path []) ∨
        (r = .panic ∨ r = .hang) ∧ d' = (d.putAll paths₁ outs).put path []) := by
  induction hl with
  | done => exact absurd rfl hr
  | written h1 h2 hc _ ih =>
    obtain ⟨ps₁, p, ps₂, paths₁, path, paths₂, outs, h₁, rfl, rfl, hlen, ho, hd⟩ := ih hr
    cases hc hfine
    exact ⟨_ :: ps₁, p, ps₂, _ :: paths₁, path, paths₂, _, h₁, rfl, rfl, by simp [hlen],
      .cons h1 h2 ho, hd⟩
  | notOpened => exact ⟨[], _, _, [], _, _, [], _, rfl, rfl, rfl, .nil, .inl ⟨⟨_, rfl⟩, rfl⟩⟩
  | writeFails => exact ⟨[], _, _, [], _, _, [], _, rfl, rfl, rfl, .nil, .inr (.inl ⟨_, _, rfl, rfl⟩)⟩
  | formatFails h1 h2 hc =>
    cases hc hfine
    exact ⟨[], _, _, [], _, _, [], _, rfl, rfl, rfl, .nil, .inr (.inr (.inl ⟨_, _, rfl, h1, h2, rfl⟩))⟩
  | panics hc =>
    cases hc hfine
    exact ⟨[], _, _, [], _, _, [], _, rfl, rfl, rfl, .nil, .inr (.inr (.inr ⟨.inl rfl, rfl⟩))⟩
  | hangs => exact ⟨[], _, _, [], _, _, [], _, rfl, rfl, rfl, .nil, .inr (.inr (.inr ⟨.inr rfl, rfl⟩))⟩

/-- The property in full: if `WriteGoFilesToFileSystem` returns nil, then each file is on the disk, with
its formatted text. -/
def C58_full : Prop := ∀ (env : Env) (fuel : Nat) (w : World) (root : GoString) (ps : List Ptr)
    (paths : List GoString) (h : Heap) (evs : List Event) (d d' : Disk), FullPaths root h ps paths →
    (writeGoFilesToFileSystem env fuel w root ps h []).1 = .ok none →
    (writeGoFilesToFileSystem env fuel w root ps h []).2.2 = evs →
    Disk.After 0 (fun _ => none) d evs d' →
    ∃ outs h', RenderedInTurn env fuel h ps outs h' ∧ d' = d.putAll paths outs

/-- C58, as far as it holds: if nil is returned and no `Close` failed, then each file is on the disk,
with its formatted text (the last one, where several have the same path), and nothing else has
changed. Missing: that a failed `Close` is reported, see `C58_fails`. -/
theorem C58_disk_partial (env : Env) (fuel : Nat) (w : World) (root : GoString) (ps : List Ptr)
    (paths : List GoString) (h : Heap) (evs : List Event) (d d' : Disk) (hp : FullPaths root h ps paths)
    (hr : (writeGoFilesToFileSystem env fuel w root ps h []).1 = .ok none)
    (he : (writeGoFilesToFileSystem env fuel w root ps h []).2.2 = evs) (hfine : ClosesFine evs)
    (ha : Disk.After 0 (fun _ => none) d evs d') :
    ∃ outs h', RenderedInTurn env fuel h ps outs h' ∧ d' = d.putAll paths outs := by
  obtain ⟨evs', h1, h2⟩ := leaves_aux env fuel w root (ClosesFine evs) ps paths h [] hp
  rw [he, List.nil_append] at h1
  subst h1
  exact leaves_done (h2 id _ _ _ ha) hfine hr

/-- C58: after a failure, the files before the one that failed are on the disk and those after it are
untouched. The one that failed is as it was if it could not be opened; it is empty (whatever it contained
before) if it could not be formatted or rendering panicked or did not end. -/
theorem C58_stopped (env : Env) (fuel : Nat) (w : World) (root : GoString) (ps : List Ptr)
    (paths : List GoString) (h : Heap) (evs : List Event) (d d' : Disk) (r : Outcome (Option Err))
    (hp : FullPaths root h ps paths)
    (hr : (writeGoFilesToFileSystem env fuel w root ps h []).1 = r) (hne : r ≠ .ok none)
    (he : (writeGoFilesToFileSystem env fuel w root ps h []).2.2 = evs) (hfine : ClosesFine evs)
    (ha : Disk.After 0 (fun _ => none) d evs d') :
    ∃ ps₁ p ps₂ paths₁ path paths₂ outs h₁, ps = ps₁ ++ p :: ps₂ ∧ paths = paths₁ ++ path :: paths₂ ∧
      ps₁.length = paths₁.length ∧ RenderedInTurn env fuel h ps₁ outs h₁ ∧
      ((∃ e, r = .ok (some (.external e))) ∧ d' = d.putAll paths₁ outs ∨
        (∃ e c, r = .ok (some (.external e)) ∧ d' = (d.putAll paths₁ outs).put path c) ∨
        (∃ text h₂, r = .ok (some (.format text)) ∧ renderFile env fuel p h₁ = (.ok text, h₂) ∧
          env.format text = none ∧ d' = (d.putAll paths₁ outs).put path []) ∨
        (r = .panic ∨ r = .hang) ∧ d' = (d.putAll paths₁ outs).put path []) := by
  obtain ⟨evs', h1, h2⟩ := leaves_aux env fuel w root (ClosesFine evs) ps paths h [] hp
  rw [he, List.nil_append] at h1
  subst h1
  exact leaves_stopped (h2 id _ _ _ ha) hfine (by rw [hr]; exact hne) |> fun h => by rwa [hr] at h

/-- C58: whatever happens, files that are not among those to be written stay as they are. -/
theorem C58_others (env : Env) (fuel : Nat) (w : World) (root : GoString) (ps : List Ptr)
    (paths : List GoString) (h : Heap) (evs : List Event) (d d' : Disk) (hp : FullPaths root h ps paths)
    (he : (writeGoFilesToFileSystem env fuel w root ps h []).2.2 = evs)
    (ha : Disk.After 0 (fun _ => none) d evs d') (q : GoString) (hq : q ∉ paths) : d' q = d q := by
  obtain ⟨evs', h1, h2⟩ := leaves_aux env fuel w root False ps paths h [] hp
  rw [he, List.nil_append] at h1
  subst h1
  exact leaves_others (h2 False.elim _ _ _ ha) hq

/-- Nothing fails but the first `Close`. -/
def exCloseFails : World where
  openAnswer _ _ := none
  writeAnswer _ _ _ := none
  mkdirAnswer _ _ := none
  closeAnswer _ _ := some 5

example : (writeGoFilesToFileSystem exEnv 1 exCloseFails (b! "/s") [0] exFiles []).1 = .ok none ∧
    (writeGoFilesToFileSystem exEnv 1 exCloseFails (b! "/s") [0] exFiles []).2.2
      = [.mkdirAll (b! "/s/x/p") none, .open (b! "/s/x/p/a.go") none,
         .write 2 (b! "package p\n\n") none, .close 2 (some 5)] := by decide

/-- C58 fails: the error of `Close` is dropped (model.go:235), so that nil is returned although the file
need not be there. -/
theorem C58_fails : ¬ C58_full := by
  intro hall
  obtain ⟨outs, h', ho, hd⟩ := hall exEnv 1 exCloseFails (b! "/s") [0] [b! "/s/x/p/a.go"] exFiles _
    (fun _ => none) (Disk.put (fun _ => none) (b! "/s/x/p/a.go") [])
    (.cons ⟨_, rfl, by decide⟩ .nil) (by decide) rfl (by
      have : (writeGoFilesToFileSystem exEnv 1 exCloseFails (b! "/s") [0] exFiles []).2.2
        = [.mkdirAll (b! "/s/x/p") none, .open (b! "/s/x/p/a.go") none,
           .write 2 (b! "package p\n\n") none, .close 2 (some 5)] := by decide
      rw [this]
      refine .mkdirAll (.opens (.write (path := b! "/s/x/p/a.go") (old := []) rfl rfl
        (.closeFails (path := b! "/s/x/p/a.go") (c := []) rfl ?_)))
      rw [put_put, put_put]
      exact .nil)
  cases ho with
  | cons h1 h2 h3 =>
    cases h3
    have h4 : (renderFile exEnv 1 0 exFiles).1 = .ok (b! "package p\n\n") := by decide
    rw [h1] at h4
    cases h4
    have h5 : exEnv.format (b! "package p\n\n") = some (b! "package p\n\n") := by decide
    rw [h2] at h5
    cases h5
    have := congrFun hd (b! "/s/x/p/a.go")
    simp [Disk.putAll, Disk.put] at this

/-- Two files with the same path: the second one is what remains. -/
def exSamePath : Heap where
  files p := if p = 0 then some { name := b! "a.go", packageName := b! "p", imports := newImportsFor (b! "x/p") }
    else if p = 1 then some { name := b! "a.go", packageName := b! "q", imports := newImportsFor (b! "x/./p") }
    else none

example : FullPaths (b! "/s") exSamePath [0, 1] [b! "/s/x/p/a.go", b! "/s/x/p/a.go"] :=
  .cons ⟨_, rfl, by decide⟩ (.cons ⟨_, rfl, by decide⟩ .nil)
example : Disk.putAll (fun _ => none) [b! "/s/x/p/a.go", b! "/s/x/p/a.go"]
    [b! "package p\n\n", b! "package q\n\n"] (b! "/s/x/p/a.go") = some (b! "package q\n\n") := by decide

end Gopoet
