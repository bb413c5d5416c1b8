import Verif.Props.ProgramApart
/-!
# Programs write their files to the disk (C58, C78)
-/

namespace Gopoet
open Imports

/-- Nothing fails. -/
structure World.Fine (w : World) : Prop where
  opens : ∀ es path, w.openAnswer es path = none
  writes : ∀ es k data, w.writeAnswer es k data = none
  closes : ∀ es k, w.closeAnswer es k = none
  mkdirs : ∀ es dir, w.mkdirAnswer es dir = none

theorem written_fine {env : Env} {fuel : Nat} {w : World} (hw : w.Fine) {root : GoString} {h h' : Heap} {ps : List Ptr} {outs : List GoString}
    (hr : RenderedInTurn env fuel h ps outs h') : ∀ {paths : List GoString} (es : List Event), FullPaths root h ps paths →
    ∃ evs, writeGoFilesToFileSystem env fuel w root ps h es = (.ok none, h', es ++ evs) ∧ ClosesFine evs ∧
      ∀ writers d, Disk.After es.length writers d evs (d.putAll paths outs) := by
  induction hr with
  | nil =>
    intro paths es hp
    cases hp
    exact ⟨[], by rw [writeGoFilesToFileSystem, writeGoFiles, List.append_nil], (fun _ _ hm => nomatch hm), fun _ _ => .nil⟩
  | @cons h p text out h1 ps outs h' k1 k2 _ ih =>
    intro paths es hp
    cases hp with
    | @cons _ path _ paths hpp hps =>
    obtain ⟨f, hf, hpath⟩ := hpp
    generalize he : es ++ [Event.mkdirAll (filepathDir path) none, .open path none, .write (es.length + 2) out none,
      .close (es.length + 2) none] = es'
    have hl : es'.length = es.length + 1 + 1 + 1 + 1 := by rw [← he]; simp
    obtain ⟨evs, h2, h3, h4⟩ := ih es' (fullPaths_of_files (fun q => renderFile_files k1 q) hps)
    refine ⟨.mkdirAll (filepathDir path) none :: .open path none :: .write (es.length + 2) out none :: .close (es.length + 2) none :: evs, ?_, ?_, ?_⟩
    · unfold writeGoFilesToFileSystem at h2 ⊢
      rw [writeGoFiles, hf]
      have hlen : (es ++ [Event.mkdirAll (filepathDir path) none] ++ [Event.open path none]).length = es.length + 2 := by simp
      simp only [fileSystemOpen, ← hpath, hw.mkdirs, plainOpen, hw.opens, hlen]
      unfold writeAndClose writeGoFile
      simp only [k1, emit, k2, hw.writes, hw.closes]
      have he' : es ++ [Event.mkdirAll (filepathDir path) none] ++ [Event.open path none] ++ [Event.write (es.length + 2) out none] ++
          [Event.close (es.length + 2) none] = es' := by rw [← he]; simp
      rw [he', h2, ← he]
      simp
    · intro k e hm
      simp only [List.mem_cons, reduceCtorEq, Event.close.injEq, and_false, false_or] at hm
      exact h3 k e hm
    · intro writers d
      refine .mkdirAll (.opens ?_)
      refine .write (path := path) (old := []) (by simp) (by simp [Disk.put]) ?_
      rw [put_put]
      refine .close ?_
      rw [← hl]
      exact h4 _ _

/-- C58: if nothing fails outside, `WriteGoFilesToFileSystem` writes all files that can be rendered and formatted in turn, and returns
nil; then they are on the disk. -/
theorem C58_possible {env : Env} {fuel : Nat} {w : World} (hw : w.Fine) {root : GoString} {h h' : Heap} {ps : List Ptr}
    {outs paths : List GoString} (hr : RenderedInTurn env fuel h ps outs h') (hp : FullPaths root h ps paths) :
    ∃ evs, writeGoFilesToFileSystem env fuel w root ps h [] = (.ok none, h', evs) ∧ ClosesFine evs ∧
      ∀ d, Disk.After 0 (fun _ => none) d evs (d.putAll paths outs) := by
  obtain ⟨evs, h1, h2, h3⟩ := written_fine hw hr [] hp
  exact ⟨evs, h1, h2, h3 _⟩

theorem putAll_after {env : Env} {fuel : Nat} {w : World} {root : GoString} {h h' h1 : Heap} {ps : List Ptr}
    {outs paths : List GoString} {evs : List Event} {d d' : Disk} (hr : RenderedInTurn env fuel h ps outs h') (hp : FullPaths root h ps paths)
    (hx : writeGoFilesToFileSystem env fuel w root ps h [] = (.ok none, h1, evs)) (hc : ClosesFine evs)
    (ha : Disk.After 0 (fun _ => none) d evs d') : d' = d.putAll paths outs := by
  obtain ⟨outs', h2, k1, rfl⟩ := C58_disk_partial env fuel w root ps paths h evs d d' hp (by rw [hx]) (by rw [hx]) hc ha
  suffices outs' = outs by rw [this]
  clear hx hc ha hp
  induction hr generalizing outs' with
  | nil => cases k1; rfl
  | cons a1 a2 _ ih =>
    cases k1 with
    | cons b1 b2 b3 =>
      rw [a1] at b1
      cases b1
      rw [a2] at b2
      cases b2
      rw [ih _ b3]

/-- The file that `NewGoFile` has made has the name and the path that were given to it. -/
theorem file_named {cs : List BuildCall} {h : Heap} (hb : build cs {} = .ok h) {name path pkg : GoString} {g : Heap} {post : List BuildCall}
    (hm : Made cs (.newFile name path pkg) g post) : ∃ f, h.files g.next = some f ∧ f.name = name ∧ f.package.importPath = path := by
  obtain ⟨g1, k1, k2, k3, k4, k5, k6⟩ := hm.exec hb
  obtain ⟨q, h1⟩ := built_ok k1
  obtain ⟨f0, h2, h1⟩ := bind_eq_ok h1
  cases h1
  have hf0 : f0 = { name := name, packageName := pkg, imports := newImportsFor path } := by
    unfold newGoFile at h2
    repeat' split at h2
    all_goals cases h2
    rfl
  obtain ⟨f, es, m1, m2, m3, m4, m5, m6, m7⟩ := k6.files g.next f0 (upd_same _ _ _)
  refine ⟨f, m1, ?_, ?_⟩
  · rw [m3, hf0]
  · rw [GoFile.package, m2, hf0]; rfl

/-- The file is called so in the program. -/
def FileCalled (cs : List BuildCall) (own pkg : GoString) (x : FilePlan) (name : GoString) : Prop :=
  ∃ g post, Made cs (.newFile name own pkg) g post ∧ g.next = x.1

/-- **C78 (h).** A sensible program, in which no call brings objects of different files together, writes its files to the disk, if nothing
fails outside and the formatter accepts source files and leaves them what they are: `WriteGoFilesToFileSystem` returns nil; then
every file is in the directory that has the path of the package, is a Go file, and has the meaning that the calls say. Other
files are as before. -/
theorem C78_disk {realName : GoString → GoString} {env : Env} {K : KnownTemplates env} {cs : List BuildCall} {h : Heap}
    {own pkg root : GoString} {plans : List FilePlan} {names : List GoString} {owner : Ptr → Ptr} {w : World}
    (hb : build cs {} = .ok h)
    (hs : ∀ x ∈ plans, SaysFile (packageScope own (Declared.names (plansDeclared plans))) cs x.1 pkg x.2)
    (hp : Proper realName own (Declared.names (plansDeclared plans) ++ predeclaredNames ++ [b! "init"]) cs)
    (hc : CodeSays K h own cs) (hsn : Sensible cs)
    (hid : isIdent pkg = true) (hn : (plansDeclared plans).Nodup) (hi : .name (b! "init") ∉ plansDeclared plans)
    (hpn : (plans.map (·.1)).Nodup) (ha : FilesApart owner cs) (ho : ∀ x ∈ plans, owner x.1 = x.1)
    (hnames : List.Forall₂ (FileCalled cs own pkg) plans names)
    (hnn : (names.map fun n => filepathJoin root (filepathJoin own n)).Nodup)
    (hfmt : ∀ text src, parseGoFile text = some src → ∃ out, env.format text = some out)
    (hleave : ∀ text src out, parseGoFile text = some src → env.format text = some out → parseGoFile out = some src)
    (hw : w.Fine) :
    ∃ fuel h' evs srcs, writeGoFilesToFileSystem env fuel w root (plans.map (·.1)) h [] = (.ok none, h', evs) ∧
      LegalPackage srcs pkg realName ∧
      List.Forall₂ (fun x src => FilePlan.Becomes realName env fuel h own (packageNames srcs) x src) plans srcs ∧
      (∀ d, ∃ d', Disk.After 0 (fun _ => none) d evs d') ∧
      ∀ d d', Disk.After 0 (fun _ => none) d evs d' →
        List.Forall₂ (fun n src => ∃ out, d' (filepathJoin root (filepathJoin own n)) = some out ∧ parseGoFile out = some src) names srcs ∧
        ∀ path, path ∉ names.map (fun n => filepathJoin root (filepathJoin own n)) → d' path = d path := by
  obtain ⟨fuel, outs, h', srcs, h1, h2, h3, h4⟩ := C78_apart hb hs hp hc hsn hid hn hi hpn ha ho hfmt
  have hpath : FullPaths root h (plans.map (·.1)) (names.map fun n => filepathJoin root (filepathJoin own n)) := by
    rw [FullPaths, List.forall₂_map_left_iff, List.forall₂_map_right_iff]
    refine hnames.imp ?_
    rintro x n ⟨g, post, k1, k2⟩
    obtain ⟨f, k3, k4, k5⟩ := file_named hb k1
    exact ⟨f, k2 ▸ k3, by rw [k4, k5]⟩
  obtain ⟨evs, h5, h6, h7⟩ := C58_possible hw h1 hpath
  refine ⟨fuel, h', evs, srcs, h5, h3, h4, fun d => ⟨_, h7 d⟩, fun d d' hd => ?_⟩
  rw [putAll_after h1 hpath h5 h6 hd]
  refine ⟨?_, fun path => putAll_other⟩
  have h8 := putAll_each (d := d) hnn ((fullPaths_length hpath).symm.trans (renderedInTurn_length h1))
  have h9 := forall₂_join h8 h2
  rw [List.forall₂_map_left_iff] at h9
  refine h9.imp ?_
  rintro n src ⟨out, k1, text, k2, k3⟩
  exact ⟨out, k1, hleave text src out k3 k2⟩

/-- C78 (h) for the example. -/
theorem exDuo_disk {env : Env} {w : World} (hw : w.Fine)
    (hfmt : ∀ text src, parseGoFile text = some src → ∃ out, env.format text = some out)
    (hleave : ∀ text src out, parseGoFile text = some src → env.format text = some out → parseGoFile out = some src) :
    ∃ h fuel h' evs, build exDuo {} = .ok h ∧ writeGoFilesToFileSystem env fuel w (b! "/src") [0, 4] h [] = (.ok none, h', evs) ∧
      ∀ d d', Disk.After 0 (fun _ => none) d evs d' →
        (∃ out, d' (b! "/src/x/shop/item.go") = some out ∧ (parseGoFile out).isSome) ∧
        (∃ out, d' (b! "/src/x/shop/new.go") = some out ∧ (parseGoFile out).isSome) ∧
        d' (b! "/src/x/shop/other.go") = d (b! "/src/x/shop/other.go") := by
  have hnames : Declared.names (plansDeclared exDuoPlans) = [b! "Item", b! "New"] := by
    rw [exDuo_declared]
    decide
  have hx : ((build exDuo {}).bind fun _ => .ok ()) = .ok () := by decide +kernel
  obtain ⟨h, hb, -⟩ := bind_eq_ok hx
  obtain ⟨g0, m0, k0⟩ := Made.at (cs := exDuo) 0 rfl (k := 0) (by decide +kernel)
  obtain ⟨g4, m4, k4⟩ := Made.at (cs := exDuo) 4 rfl (k := 4) (by decide +kernel)
  obtain ⟨fuel, h', evs, srcs, h1, -, -, -, h2⟩ := C78_disk (env := env) (plans := exDuoPlans) (names := [b! "item.go", b! "new.go"]) (root := b! "/src") hb
    (by rw [hnames]; exact exDuo_says) (by rw [hnames]; exact exDuo_proper) (exDuo_code (K := noTemplates env) hb) exDuo_sensible (by decide)
    (by rw [exDuo_declared]; decide) (by rw [exDuo_declared]; decide) (by decide) exDuo_apart (by decide)
    (.cons ⟨_, _, m0, k0⟩ (.cons ⟨_, _, m4, k4⟩ .nil)) (by decide +kernel) hfmt hleave hw
  refine ⟨h, fuel, h', evs, hb, h1, fun d d' hd => ?_⟩
  obtain ⟨h3, h4⟩ := h2 d d' hd
  obtain ⟨src1, l, ⟨out1, a1, a2⟩, h5, rfl⟩ := List.forall₂_cons_left_iff.1 h3
  obtain ⟨src2, l, ⟨out2, b1, b2⟩, -, rfl⟩ := List.forall₂_cons_left_iff.1 h5
  have e1 : filepathJoin (b! "/src") (filepathJoin (b! "x/shop") (b! "item.go")) = b! "/src/x/shop/item.go" := by decide +kernel
  have e2 : filepathJoin (b! "/src") (filepathJoin (b! "x/shop") (b! "new.go")) = b! "/src/x/shop/new.go" := by decide +kernel
  rw [e1] at a1
  rw [e2] at b1
  refine ⟨⟨out1, a1, by rw [a2]; rfl⟩, ⟨out2, b1, by rw [b2]; rfl⟩, h4 _ ?_⟩
  simp only [List.map_cons, List.map_nil, e1, e2]
  decide

end Gopoet
