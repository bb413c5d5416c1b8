import Verif.Spec.Package
import Verif.Props.FileNames
import Verif.Props.Independent
import Verif.Props.Writable
import Verif.Props.Disk

/-! # C69: a package that is written is a Go package

The files of a package, written by `WriteGoFiles`, put together: what was shown for one file (C56, C62, C66, C67), that
files which share nothing do not influence each other (C63), that they can be written (C68), and what is on the disk
afterwards (C58). -/

namespace Gopoet
open Imports

/-- A file of a package, and what it is meant to declare. -/
structure PackagePart where
  ptr : Ptr
  file : GoFile
  meaning : List DeclMeaning

/-- What the files of the package declare, by the names of their elements. -/
def partsDeclared (h : Heap) (xs : List PackagePart) : List Declared := xs.flatMap (·.file.declared h)

/-- What C67 asks of a file, in a package in which `all` is declared. -/
structure PackagePart.Good (realName : GoString → GoString) (env : Env) (h : Heap) (own name : GoString) (all : List Declared)
    (x : PackagePart) : Prop where
  file : h.files x.ptr = some x.file
  path : x.file.imports.pkgPath = own
  package : x.file.packageName = name
  truthful : TruthfulInput realName h x.file
  nameable : NameableInput h x.file
  tidy : Tidy h x.file
  intends : List.Forall₂ (Intends (packageScope own (Declared.names all)) h) x.file.elements x.meaning
  reads : ∀ fuel text h', renderFile env fuel x.ptr h = (.ok text, h') → ∀ e ∈ x.file.elements, CodeReads env h' e
  paths : ∀ fuel text h' f', renderFile env fuel x.ptr h = (.ok text, h') → h'.files x.ptr = some f' →
    [] ∉ f'.imports.importedPaths
  avoid : NamesAvoid h x.file (Declared.names all ++ predeclaredNames ++ [b! "init"])

/-- The source file is what the file was meant to be: it declares and means what it should, uses the imports that were added to
it, and references in its code refer to what was given. -/
structure PackagePart.Becomes (realName : GoString → GoString) (env : Env) (fuel : Nat) (h : Heap) (own : GoString)
    (decls : List GoString) (x : PackagePart) (src : SourceFile) : Prop where
  declared : src.declared = x.file.declared h
  meaning : src.meaning own decls realName = some x.meaning
  used : ∀ s ∈ src.imports, s.path ∉ x.file.imports.importedPaths → s.UsedIn realName src ∨
    ∃ f', (renderFile env fuel x.ptr h).2.files x.ptr = some f' ∧ ∃ e ∈ x.file.elements, ∃ c pk, e.HasCode h c ∧
      UsedCodeElem h f'.imports c pk ∧ pk.importPath = s.path
  refers : ∀ e ∈ x.file.elements, ∀ q (l : List Arg) (n : Nat) a ref, HasLine h e q → h.args q = some l → l[n]? = some a →
    Denotes h a ref → ref.valid → ref.wellNamed = true → (∀ o text, a ≠ .goObject o text) →
    (packageScope own decls).Visible ref →
    ∃ l' a' s, (renderFile env fuel x.ptr h).2.args q = some l' ∧ l'[n]? = some a' ∧
      a'.shown env.isPrint (renderFile env fuel x.ptr h).2 = .str s ∧ (src.scope own decls realName).Means s ref

theorem names_eq (srcs : List SourceFile) : packageNames srcs = Declared.names (packageDeclared srcs) := rfl

theorem intends_ident {sc : FileScope} {h : Heap} {e : FileElem} {M : DeclMeaning} (hm : Intends sc h e M) {n : GoString}
    (hn : .name n ∈ e.declared h) : isIdent n = true := by
  cases hm with
  | types h1 h2 h3 =>
    simp only [FileElem.declared, h1, List.mem_flatMap] at hn
    obtain ⟨q, hq, hn⟩ := hn
    obtain ⟨_, -, ts, t, h4, h5, -⟩ := forall₂_mem_left h3 hq
    simp only [typeDeclared, h4, Option.map_some, Option.toList_some, List.mem_singleton, Declared.name.injEq] at hn
    rw [hn]
    exact h5
  | values h1 h2 h3 =>
    simp only [FileElem.declared, h1, List.mem_flatMap] at hn
    obtain ⟨q, hq, hn⟩ := hn
    obtain ⟨_, -, c, t, h4, -, h5, -⟩ := forall₂_mem_left h3 hq
    simp only [valueDeclared, h4, List.mem_map, Declared.name.injEq, exists_eq_right] at hn
    exact h5 n hn
  | @func p f h1 h2 =>
    simp only [FileElem.declared, h1] at hn
    cases hr : f.receiver with
    | none =>
      simp only [hr] at hn
      split at hn
      · simp at hn
      · simp only [List.mem_singleton, Declared.name.injEq] at hn
        rw [hn]
        exact h2
    | some r => simp [hr] at hn

theorem parts_ident {realName : GoString → GoString} {env : Env} {h : Heap} {own name : GoString} {all : List Declared}
    {xs : List PackagePart} (hg : ∀ x ∈ xs, x.Good realName env h own name all) {n : GoString}
    (hn : .name n ∈ partsDeclared h xs) : isIdent n = true := by
  obtain ⟨x, hx, hn⟩ := List.mem_flatMap.1 hn
  rw [GoFile.declared] at hn
  obtain ⟨e, he, hn⟩ := List.mem_flatMap.1 (List.mem_filter.1 hn).1
  obtain ⟨M, -, hM⟩ := forall₂_mem_left (hg x hx).intends he
  exact intends_ident hM hn

theorem parts_split {h : Heap} {xs : List PackagePart} {x : PackagePart} (hx : x ∈ xs) :
    ∃ others, (others ++ x.file.declared h).Perm (partsDeclared h xs) := by
  obtain ⟨s, t, rfl⟩ := List.append_of_mem hx
  refine ⟨partsDeclared h s ++ partsDeclared h t, ?_⟩
  simp only [partsDeclared, List.flatMap_append, List.flatMap_cons]
  rw [List.append_assoc]
  exact (List.perm_append_comm).append_left _

/-- One file of the package. -/
theorem part_written {realName : GoString → GoString} {env : Env} {fuel : Nat} {h : Heap} {own name : GoString}
    {xs : List PackagePart} (hid : isIdent name = true) (hg : ∀ x ∈ xs, x.Good realName env h own name (partsDeclared h xs))
    (hn : (partsDeclared h xs).Nodup) (hi : .name (b! "init") ∉ partsDeclared h xs) {x : PackagePart} (hx : x ∈ xs)
    {text : GoString} (hr : (renderFile env fuel x.ptr h).1 = .ok text) :
    ∃ src, parseGoFile text = some src ∧ src.package = name ∧
      (src.imports.map (·.spec.binds realName)).Nodup ∧
      (∀ s ∈ src.imports, .name (s.spec.binds realName) ∉ partsDeclared h xs ∧ s.spec.binds realName ≠ b! "init") ∧
      x.Becomes realName env fuel h own (Declared.names (partsDeclared h xs)) src := by
  have g := hg x hx
  have hr' : renderFile env fuel x.ptr h = (.ok text, (renderFile env fuel x.ptr h).2) := Prod.ext hr rfl
  obtain ⟨others, hperm⟩ := parts_split (h := h) hx
  have hall : ∀ d, d ∈ partsDeclared h xs ↔ d ∈ others ++ x.file.declared h := fun d => hperm.mem_iff.symm
  obtain ⟨f', hf'⟩ : ∃ f', (renderFile env fuel x.ptr h).2.files x.ptr = some f' := by
    obtain ⟨f0, f', h1, h2, -⟩ := qualifyFile_settled (qualifyFile_of_renderFile hr')
    exact ⟨f', h2⟩
  have hd : ∀ d, d ∈ x.file.declared h → d ∈ partsDeclared h xs := fun d hd => (hall d).2 (List.mem_append_right _ hd)
  obtain ⟨src, h1, h2, h3, h4, h5, h6, h7⟩ := file_names_all others (partsDeclared h xs) hall g.file hf'
    (g.paths fuel text _ f' hr' hf') g.truthful g.nameable (by rw [g.package]; exact hid) g.tidy
    (by rw [g.path]; exact g.intends) hr' (g.reads fuel text _ hr')
    (fun n hn => parts_ident hg ((hall _).2 (List.mem_append_left _ (Declared.mem_names.1 hn)))) (hperm.nodup_iff.2 hn)
    (fun hm => hi (hd _ hm)) g.avoid
  rw [g.path] at h5 h7
  refine ⟨src, h1, h2.trans g.package, h4.imports, fun s hs => ?_, h3, h5, fun s hs hb => ?_, h7⟩
  · rw [hall, ← h3]
    exact h4.apart s hs
  · exact (h6 s hs hb).imp id fun ⟨e, he, hc⟩ => ⟨f', hf', e, he, hc⟩

theorem forall₂_choose {α β γ : Type} {Q : α → β → Prop} {A : α → γ → Prop} {B : β → γ → Prop} :
    ∀ {l : List α} {m : List β}, List.Forall₂ Q l m → (∀ a ∈ l, ∀ b, Q a b → ∃ c, A a c ∧ B b c) →
    ∃ n, List.Forall₂ A l n ∧ List.Forall₂ B m n
  | _, _, .nil, _ => ⟨[], .nil, .nil⟩
  | a :: l, b :: m, .cons h1 h2, h => by
    obtain ⟨c, h3, h4⟩ := h a (by simp) b h1
    obtain ⟨n, h5, h6⟩ := forall₂_choose h2 fun a ha => h a (List.mem_cons_of_mem _ ha)
    exact ⟨c :: n, .cons h3 h5, .cons h4 h6⟩

theorem forall₂_right {α β : Type} {R : α → β → Prop} {P : β → Prop} {l : List α} {m : List β} (h : List.Forall₂ R l m)
    (hp : ∀ a b, R a b → P b) : ∀ b ∈ m, P b := by
  induction h with
  | nil => simp
  | cons h1 _ ih => exact List.forall_mem_cons.2 ⟨hp _ _ h1, ih⟩

theorem declared_parts {h : Heap} {l : List PackagePart} {m : List SourceFile}
    (hlm : List.Forall₂ (fun x src => src.declared = x.file.declared h) l m) : packageDeclared m = partsDeclared h l := by
  induction hlm with
  | nil => rfl
  | cons h1 _ ih =>
    simp only [packageDeclared, partsDeclared, List.flatMap_cons] at ih ⊢
    rw [ih, h1]

/-- C69: the files of a package that share nothing, with names that cannot clash, are written as a Go package: nothing is
declared twice in it, each file means what it was meant to mean (with the names that the written files declare), uses the
imports that were added to it, and references in its code refer to what was given. -/
theorem C69_package {realName : GoString → GoString} {env : Env} {fuel : Nat} {h h' : Heap} {own name : GoString}
    {xs : List PackagePart} {outs : List GoString} (hid : isIdent name = true)
    (hg : ∀ x ∈ xs, x.Good realName env h own name (partsDeclared h xs))
    (hn : (partsDeclared h xs).Nodup) (hi : .name (b! "init") ∉ partsDeclared h xs)
    (hp : (xs.map (·.ptr)).Nodup) (hu : ∀ x ∈ xs, ∀ y ∈ xs, x.ptr ≠ y.ptr → Undisturbed h x.ptr y.ptr)
    (henv : ∀ x ∈ xs, env.WritesByString fuel h x.ptr)
    (hr : RenderedInTurn env fuel h (xs.map (·.ptr)) outs h') :
    ∃ srcs, List.Forall₂ (fun out src => ∃ text, env.format text = some out ∧ parseGoFile text = some src) outs srcs ∧
      LegalPackage srcs name realName ∧
      List.Forall₂ (fun x src => x.Becomes realName env fuel h own (packageNames srcs) src) xs srcs := by
  have h1 := (C63_in_turn hp (by
    intro p hp q hq
    obtain ⟨x, hx, rfl⟩ := List.mem_map.1 hp
    obtain ⟨y, hy, rfl⟩ := List.mem_map.1 hq
    exact hu x hx y hy) (by
    intro p hp
    obtain ⟨x, hx, rfl⟩ := List.mem_map.1 hp
    exact henv x hx)).1 ⟨h', hr⟩
  rw [List.forall₂_map_left_iff] at h1
  obtain ⟨srcs, h2, h3⟩ := forall₂_choose
    (A := fun x src => src.package = name ∧ (src.imports.map (·.spec.binds realName)).Nodup ∧
      (∀ s ∈ src.imports, .name (s.spec.binds realName) ∉ partsDeclared h xs ∧ s.spec.binds realName ≠ b! "init") ∧
      x.Becomes realName env fuel h own (Declared.names (partsDeclared h xs)) src)
    (B := fun out src => ∃ text, env.format text = some out ∧ parseGoFile text = some src) h1 (by
      rintro x hx out ⟨text, h4, h5⟩
      obtain ⟨src, h6, h7⟩ := part_written hid hg hn hi hx h4
      exact ⟨src, h7, text, h5, h6⟩)
  have hd : packageDeclared srcs = partsDeclared h xs := by
    exact declared_parts (h2.imp fun x src h4 => h4.2.2.2.declared)
  refine ⟨srcs, h3, ⟨forall₂_right h2 fun x src h4 => h4.1, hd ▸ hn, hd ▸ hi, forall₂_right h2 fun x src h4 => h4.2.1,
    forall₂_right h2 fun x src h4 => ?_⟩, ?_⟩
  · rw [hd]; exact h4.2.2.1
  · rw [names_eq, hd]
    exact h2.imp fun x src h4 => h4.2.2.2

/-- C69: a formatter that accepts source files gets to write the package: files that share nothing, each of which can be written
on its own, are written in turn. -/
theorem C69_possible_each {realName : GoString → GoString} {env : Env} {h : Heap} {own name : GoString}
    {xs : List PackagePart} (hid : isIdent name = true)
    (hg : ∀ x ∈ xs, x.Good realName env h own name (partsDeclared h xs))
    (hn : (partsDeclared h xs).Nodup) (hi : .name (b! "init") ∉ partsDeclared h xs)
    (hp : (xs.map (·.ptr)).Nodup) (hu : ∀ x ∈ xs, ∀ y ∈ xs, x.ptr ≠ y.ptr → Undisturbed h x.ptr y.ptr)
    (henv : ∀ fuel, ∀ x ∈ xs, env.WritesByString fuel h x.ptr)
    (hw : ∀ x ∈ xs, ∃ n text h', renderFile env n x.ptr h = (.ok text, h'))
    (hfmt : ∀ text src, parseGoFile text = some src → ∃ out, env.format text = some out) :
    ∃ fuel outs h', RenderedInTurn env fuel h (xs.map (·.ptr)) outs h' := by
  have h1 : ∀ l : List PackagePart, (∀ x ∈ l, x ∈ xs) → ∃ n, ∀ x ∈ l, ∃ text, (renderFile env n x.ptr h).1 = .ok text := by
    intro l
    induction l with
    | nil => exact fun _ => ⟨0, by simp⟩
    | cons x l ih =>
      intro hl
      obtain ⟨n, hn⟩ := ih fun y hy => hl y (List.mem_cons_of_mem _ hy)
      have hx := hl x (by simp)
      obtain ⟨m, text, h', hr⟩ := hw x hx
      refine ⟨max n m, List.forall_mem_cons.2 ⟨⟨text, ?_⟩, fun y hy => ?_⟩⟩
      · rw [renderFile_mono (Nat.le_max_right n m) hr]
      · obtain ⟨t, h2⟩ := hn y hy
        exact ⟨t, by rw [renderFile_mono (Nat.le_max_left n m) (Prod.ext h2 rfl)]⟩
  obtain ⟨n, h2⟩ := h1 xs fun _ => id
  have h3 : ∀ l : List PackagePart, (∀ x ∈ l, x ∈ xs) → ∃ outs, List.Forall₂ (fun x out => ∃ text,
      (renderFile env n x.ptr h).1 = .ok text ∧ env.format text = some out) l outs := by
    intro l
    induction l with
    | nil => exact fun _ => ⟨[], .nil⟩
    | cons x l ih =>
      intro hl
      obtain ⟨outs, h4⟩ := ih fun y hy => hl y (List.mem_cons_of_mem _ hy)
      obtain ⟨text, h5⟩ := h2 x (hl x (by simp))
      obtain ⟨src, h6, -⟩ := part_written hid hg hn hi (hl x (by simp)) h5
      obtain ⟨out, h7⟩ := hfmt text src h6
      exact ⟨out :: outs, .cons ⟨text, h5, h7⟩ h4⟩
  obtain ⟨outs, h4⟩ := h3 xs fun _ => id
  refine ⟨n, outs, (C63_in_turn hp (by
    intro p hp q hq
    obtain ⟨x, hx, rfl⟩ := List.mem_map.1 hp
    obtain ⟨y, hy, rfl⟩ := List.mem_map.1 hq
    exact hu x hx y hy) (by
    intro p hp
    obtain ⟨x, hx, rfl⟩ := List.mem_map.1 hp
    exact henv n x hx)).2 ?_⟩
  rw [List.forall₂_map_left_iff]
  exact h4

/-- C69: files without templates that share nothing, whose code is usable, are written. -/
theorem C69_possible {realName : GoString → GoString} {env : Env} {h : Heap} {own name : GoString}
    {xs : List PackagePart} (hid : isIdent name = true)
    (hg : ∀ x ∈ xs, x.Good realName env h own name (partsDeclared h xs))
    (hn : (partsDeclared h xs).Nodup) (hi : .name (b! "init") ∉ partsDeclared h xs)
    (hp : (xs.map (·.ptr)).Nodup) (hu : ∀ x ∈ xs, ∀ y ∈ xs, x.ptr ≠ y.ptr → Undisturbed h x.ptr y.ptr)
    (henv : ∀ fuel, ∀ x ∈ xs, env.WritesByString fuel h x.ptr)
    (hs : h.Sound) (hb : h.PlainBodies) (ht : ∀ x ∈ xs, ∀ e ∈ x.file.elements, ∀ q, ¬ TemplateIn h e q)
    (hc : ∀ x ∈ xs, ∀ e ∈ x.file.elements, e.CodeUsable h)
    (hfmt : ∀ text src, parseGoFile text = some src → ∃ out, env.format text = some out) :
    ∃ fuel outs h', RenderedInTurn env fuel h (xs.map (·.ptr)) outs h' :=
  C69_possible_each hid hg hn hi hp hu henv
    (fun x hx => (C68_intended_file (hg x hx).file hs hb (hg x hx).intends (ht x hx)).2 (hc x hx)) hfmt

theorem putAll_other {path : GoString} : ∀ {paths outs : List GoString} {d : Disk}, path ∉ paths →
    d.putAll paths outs path = d path
  | [], _, _, _ => rfl
  | _ :: _, [], _, _ => rfl
  | p :: paths, o :: outs, d, h => by
    rw [List.mem_cons, not_or] at h
    rw [Disk.putAll, putAll_other h.2, Disk.put, if_neg h.1]

theorem putAll_each : ∀ {paths outs : List GoString} {d : Disk}, paths.Nodup →
    paths.length = outs.length → List.Forall₂ (fun path out => d.putAll paths outs path = some out) paths outs
  | [], [], _, _, _ => .nil
  | p :: paths, o :: outs, d, hn, hl => by
    obtain ⟨h1, h2⟩ := List.nodup_cons.1 hn
    refine .cons ?_ (putAll_each h2 (Nat.succ.inj hl))
    rw [Disk.putAll, putAll_other h1, Disk.put, if_pos rfl]

theorem renderedInTurn_length {env : Env} {fuel : Nat} {h h' : Heap} {ps : List Ptr} {outs : List GoString}
    (hr : RenderedInTurn env fuel h ps outs h') : ps.length = outs.length := by
  induction hr with
  | nil => rfl
  | cons _ _ _ ih => simp [ih]

theorem fullPaths_length {root : GoString} {h : Heap} : ∀ {ps : List Ptr} {paths : List GoString}, FullPaths root h ps paths →
    ps.length = paths.length := by
  exact fun h => List.Forall₂.length_eq h

theorem forall₂_join {α β γ : Type} {R : α → β → Prop} {S : β → γ → Prop} : ∀ {l : List α} {m : List β} {n : List γ},
    List.Forall₂ R l m → List.Forall₂ S m n → List.Forall₂ (fun a c => ∃ b, R a b ∧ S b c) l n
  | _, _, _, .nil, .nil => .nil
  | _, _, _, .cons h1 h2, .cons h3 h4 => .cons ⟨_, h1, h3⟩ (forall₂_join h2 h4)

/-- C69: if `WriteGoFilesToFileSystem` returns nil for such a package, and all files were closed well, then the package is on
the disk, with a formatter that leaves source files what they are. -/
theorem C69_disk {realName : GoString → GoString} {env : Env} {fuel : Nat} {h h' : Heap} {own name : GoString}
    {xs : List PackagePart} {w : World} {root : GoString} {paths : List GoString} {evs : List Event} {d d' : Disk}
    (hid : isIdent name = true)
    (hg : ∀ x ∈ xs, x.Good realName env h own name (partsDeclared h xs))
    (hn : (partsDeclared h xs).Nodup) (hi : .name (b! "init") ∉ partsDeclared h xs)
    (hp : (xs.map (·.ptr)).Nodup) (hu : ∀ x ∈ xs, ∀ y ∈ xs, x.ptr ≠ y.ptr → Undisturbed h x.ptr y.ptr)
    (henv : ∀ x ∈ xs, env.WritesByString fuel h x.ptr)
    (hfmt : ∀ text src out, parseGoFile text = some src → env.format text = some out → parseGoFile out = some src)
    (hpath : FullPaths root h (xs.map (·.ptr)) paths) (hpn : paths.Nodup)
    (hr : writeGoFilesToFileSystem env fuel w root (xs.map (·.ptr)) h [] = (.ok none, h', evs)) (hfine : ClosesFine evs)
    (ha : Disk.After 0 (fun _ => none) d evs d') :
    ∃ srcs, List.Forall₂ (fun path src => ∃ out, d' path = some out ∧ parseGoFile out = some src) paths srcs ∧
      (∀ path, path ∉ paths → d' path = d path) ∧
      LegalPackage srcs name realName ∧
      List.Forall₂ (fun x src => x.Becomes realName env fuel h own (packageNames srcs) src) xs srcs := by
  obtain ⟨outs, h1, h2, rfl⟩ := C58_disk_partial env fuel w root (xs.map (·.ptr)) paths h evs d d' hpath
    (by rw [hr]) (by rw [hr]) hfine ha
  obtain ⟨srcs, h3, h4, h5⟩ := C69_package hid hg hn hi hp hu henv h2
  refine ⟨srcs, ?_, fun path => putAll_other, h4, h5⟩
  have h6 := putAll_each (d := d) hpn ((fullPaths_length hpath).symm.trans (renderedInTurn_length h2))
  refine (forall₂_join h6 h3).imp ?_
  rintro path src ⟨out, h7, text, h8, h9⟩
  exact ⟨out, h7, hfmt text src out h9 h8⟩

/-! ### An example -/

/-- A package of two files. The function of the first one uses a function of x/q and the function of the second one, which
uses a function of y/q. -/
def exPair : Heap where
  files p := if p = 0 then some { name := b! "a.go", packageName := b! "p", imports := newImportsFor (b! "x/p")
                                  elements := [.func 2] }
    else if p = 1 then some { name := b! "b.go", packageName := b! "p", imports := newImportsFor (b! "x/p")
                              elements := [.func 3] } else none
  funcs p := if p = 2 then some { name := b! "F", parent := some 0, code := [.line (b! "%s(%s)\n") 4] }
    else if p = 3 then some { name := b! "G", parent := some 1, code := [.line (b! "%s()\n") 5] } else none
  args p := if p = 4 then some [.symbol ⟨⟨b! "x/q", b! "q"⟩, b! "A"⟩, .func 3]
    else if p = 5 then some [.symbol ⟨⟨b! "y/q", b! "q"⟩, b! "B"⟩] else none

def exPair_first : PackagePart where
  ptr := 0
  file := { name := b! "a.go", packageName := b! "p", imports := newImportsFor (b! "x/p"), elements := [.func 2] }
  meaning := [.func none (b! "F") ⟨[], false, []⟩]

def exPair_second : PackagePart where
  ptr := 1
  file := { name := b! "b.go", packageName := b! "p", imports := newImportsFor (b! "x/p"), elements := [.func 3] }
  meaning := [.func none (b! "G") ⟨[], false, []⟩]

theorem exPair_text1 : (renderFile exEnv 3 0 exPair).1 = .ok (b! "package p\n\nimport \"x/q\"\n\nfunc F() {\nq.A(G)\n}\n") := by
  decide +kernel

theorem exPair_text2 : (renderFile exEnv 3 1 exPair).1 = .ok (b! "package p\n\nimport \"y/q\"\n\nfunc G() {\nq.B()\n}\n") := by
  decide +kernel

theorem exPair_mentioned {pk : Package} (hm : Mentioned exPair pk) :
    pk = ⟨b! "x/q", b! "q"⟩ ∨ pk = ⟨b! "y/q", b! "q"⟩ ∨ pk = ⟨b! "x/p", b! "p"⟩ := by
  cases hm with
  | file h =>
    simp only [exPair] at h
    split at h
    · cases h; decide
    · split at h
      · cases h; decide
      · simp at h
  | func h h2 =>
    simp only [exPair] at h
    split at h
    · cases h; revert h2; simp [Signature.symbols, symbolsArgs]
    · split at h
      · cases h; revert h2; simp [Signature.symbols, symbolsArgs]
      · simp at h
  | arg h h2 h3 =>
    simp only [exPair] at h
    split at h
    · cases h
      simp only [List.mem_cons, List.not_mem_nil, or_false] at h2
      rcases h2 with rfl | rfl
      · exact .inl (List.mem_singleton.1 h3)
      · simp [Arg.packages] at h3
    · split at h
      · cases h
        cases List.mem_singleton.1 h2
        exact .inr (.inl (List.mem_singleton.1 h3))
      · simp at h
  | value h => simp [exPair] at h
  | type h => simp [exPair] at h
  | field h => simp [exPair] at h
  | embed h => simp [exPair] at h
  | method h => simp [exPair] at h
  | templ h => simp [exPair] at h

theorem exPair_line {e : FileElem} {l : List Arg} (hl : LineIn exPair e l) :
    l = [.symbol ⟨⟨b! "x/q", b! "q"⟩, b! "A"⟩, .func 3] ∨ l = [.symbol ⟨⟨b! "y/q", b! "q"⟩, b! "B"⟩] := by
  have h0 : ∀ {q}, exPair.args q = some l →
      l = [.symbol ⟨⟨b! "x/q", b! "q"⟩, b! "A"⟩, .func 3] ∨ l = [.symbol ⟨⟨b! "y/q", b! "q"⟩, b! "B"⟩] := by
    intro q h3
    simp only [exPair] at h3
    split at h3
    · cases h3; exact .inl rfl
    · split at h3
      · cases h3; exact .inr rfl
      · cases h3
  cases hl with
  | init h1 => simp [exPair] at h1
  | code h1 h2 h3 => exact h0 h3

theorem exPair_tidy (f : GoFile) : Tidy exPair f := by
  refine ⟨fun e he r ts _ h1 _ => by simp [exPair] at h1, fun e he r ts _ h1 => by simp [exPair] at h1, fun e he l hl => ?_⟩
  rcases exPair_line hl with rfl | rfl <;> intro a ha m hm
  · simp only [List.mem_cons, List.not_mem_nil, or_false] at ha
    rcases ha with rfl | rfl
    · cases hm
    · cases hm with
      | method k1 k2 _ _ => simp [exPair] at k1; subst k1; simp at k2
  · cases List.mem_singleton.1 ha
    cases hm

theorem exPair_avoid {f : GoFile} (hf : f.imports = newImportsFor (b! "x/p")) :
    NamesAvoid exPair f ([b! "F", b! "G"] ++ predeclaredNames ++ [b! "init"]) := by
  refine ⟨by rw [hf]; decide, fun pk hm => ?_⟩
  rcases exPair_mentioned hm with rfl | rfl | rfl
  · exact .inl (candidate_head (b := 113) (by decide))
  · exact .inl (candidate_head (b := 113) (by decide))
  · exact .inr (.inr (.inl (by rw [hf]; rfl)))

theorem exPair_good1 : exPair_first.Good exRealName exEnv exPair (b! "x/p") (b! "p") [.name (b! "F"), .name (b! "G")] where
  file := rfl
  path := rfl
  package := rfl
  truthful := ⟨⟨[], rfl, by simp⟩, fun pk hm => by rcases exPair_mentioned hm with rfl | rfl | rfl <;> decide⟩
  nameable := ⟨⟨[], rfl, by simp⟩, fun pk hm => by rcases exPair_mentioned hm with rfl | rfl | rfl <;> decide⟩
  tidy := exPair_tidy _
  intends := .cons (.func (f := { name := b! "F", parent := some 0, code := [.line (b! "%s(%s)\n") 4] }) rfl (by decide) rfl
    rfl rfl (by simp) ⟨by decide, by decide, by decide, by decide⟩) .nil
  reads fuel text h' hr e he := by
    cases List.mem_singleton.1 he
    have hh : h' = (renderFile exEnv 3 0 exPair).2 := (C68_bound_irrelevant hr (Prod.ext exPair_text1 rfl)).2
    subst hh
    refine .func (f := { name := b! "F", parent := some 0, code := [.line (b! "%s(%s)\n") 4] })
      (code := b! "q.A(G)\n") rfl (by decide +kernel)
      (.lines (a := b! "q.A(G)") (ts := [.ident (b! "q"), .dot, .ident (b! "A"), .lparen, .ident (b! "G"), .rparen])
        (by decide +kernel) ?_)
    exact .tok rfl rfl rfl (.tok rfl rfl rfl (.tok rfl rfl rfl (.group (o := .lparen) (c := .rparen) (a := [.ident (b! "G")]) rfl
      (.tok rfl rfl rfl .nil) (.tok rfl rfl rfl .nil))))
  paths fuel text h' f' hr hf' := by
    have hh : h' = (renderFile exEnv 3 0 exPair).2 := (C68_bound_irrelevant hr (Prod.ext exPair_text1 rfl)).2
    rw [hh, show exPair_first.ptr = 0 from rfl] at hf'
    have : ((renderFile exEnv 3 0 exPair).2.files 0).map (fun f => f.imports.importSpecs) = some [⟨[], b! "x/q"⟩] := by
      decide +kernel
    rw [hf'] at this
    have hs := Option.some.inj this
    dsimp only at hs
    rw [Imports.importedPaths, hs]
    decide
  avoid := exPair_avoid rfl

theorem exPair_good2 : exPair_second.Good exRealName exEnv exPair (b! "x/p") (b! "p") [.name (b! "F"), .name (b! "G")] where
  file := rfl
  path := rfl
  package := rfl
  truthful := ⟨⟨[], rfl, by simp⟩, fun pk hm => by rcases exPair_mentioned hm with rfl | rfl | rfl <;> decide⟩
  nameable := ⟨⟨[], rfl, by simp⟩, fun pk hm => by rcases exPair_mentioned hm with rfl | rfl | rfl <;> decide⟩
  tidy := exPair_tidy _
  intends := .cons (.func (f := { name := b! "G", parent := some 1, code := [.line (b! "%s()\n") 5] }) rfl (by decide) rfl
    rfl rfl (by simp) ⟨by decide, by decide, by decide, by decide⟩) .nil
  reads fuel text h' hr e he := by
    cases List.mem_singleton.1 he
    have hh : h' = (renderFile exEnv 3 1 exPair).2 := (C68_bound_irrelevant hr (Prod.ext exPair_text2 rfl)).2
    subst hh
    refine .func (f := { name := b! "G", parent := some 1, code := [.line (b! "%s()\n") 5] })
      (code := b! "q.B()\n") rfl (by decide +kernel)
      (.lines (a := b! "q.B()") (ts := [.ident (b! "q"), .dot, .ident (b! "B"), .lparen, .rparen]) (by decide +kernel) ?_)
    exact .tok rfl rfl rfl (.tok rfl rfl rfl (.tok rfl rfl rfl (.group (o := .lparen) (c := .rparen) (a := []) rfl .nil
      (.tok rfl rfl rfl .nil))))
  paths fuel text h' f' hr hf' := by
    have hh : h' = (renderFile exEnv 3 1 exPair).2 := (C68_bound_irrelevant hr (Prod.ext exPair_text2 rfl)).2
    rw [hh, show exPair_second.ptr = 1 from rfl] at hf'
    have : ((renderFile exEnv 3 1 exPair).2.files 1).map (fun f => f.imports.importSpecs) = some [⟨[], b! "y/q"⟩] := by
      decide +kernel
    rw [hf'] at this
    have hs := Option.some.inj this
    dsimp only at hs
    rw [Imports.importedPaths, hs]
    decide
  avoid := exPair_avoid rfl

theorem exPair_made {p q : Ptr} {x : Place} (hp : p = 0 ∧ q = 4 ∨ p = 1 ∧ q = 5) (hx : FileMadeOf exPair p x) :
    x = .func (p + 2) ∨ x = .args q := by
  obtain ⟨f, hf, e, he, hm⟩ := hx
  rcases hp with ⟨rfl, rfl⟩ | ⟨rfl, rfl⟩ <;> cases hf <;> cases List.mem_singleton.1 he <;> cases hm with
  | func => exact .inl rfl
  | code h1 =>
    cases h1 with
    | func h2 h3 =>
      cases h2
      cases List.mem_singleton.1 h3
      exact .inr rfl

theorem exPair_shows {p : Ptr} (hp : p = 0 ∨ p = 1) {x : Place} (hx : FileShows exPair p x) : False := by
  obtain ⟨f, hf, e, he, hm⟩ := hx
  rcases hp with rfl | rfl <;> cases hf <;> cases List.mem_singleton.1 he <;> cases hm with
  | arg h1 h2 h3 h4 =>
    cases h1 with
    | func h5 h6 =>
      cases h5
      cases List.mem_singleton.1 h6
      cases h2
      simp only [List.mem_cons, List.not_mem_nil, or_false] at h3
      rcases h3 with rfl | rfl <;> cases h4
  | data h1 h2 h3 =>
    cases h1 with
    | func h5 h6 =>
      cases h5
      cases List.mem_singleton.1 h6

theorem exPair_undisturbed : Undisturbed exPair 0 1 ∧ Undisturbed exPair 1 0 := by
  refine ⟨fun x hx => ⟨fun h1 => ?_, exPair_shows (.inr rfl)⟩, fun x hx => ⟨fun h1 => ?_, exPair_shows (.inl rfl)⟩⟩
  · rcases exPair_made (.inl ⟨rfl, rfl⟩) hx with rfl | rfl <;> rcases exPair_made (.inr ⟨rfl, rfl⟩) h1 with h2 | h2 <;> cases h2
  · rcases exPair_made (.inr ⟨rfl, rfl⟩) hx with rfl | rfl <;> rcases exPair_made (.inl ⟨rfl, rfl⟩) h1 with h2 | h2 <;> cases h2

/-- The two files make up a package in which each calls its own `q`, and the code of the first file refers to `G` of the
second one. -/
example : ∃ srcs, [b! "package p\n\nimport \"x/q\"\n\nfunc F() {\nq.A(G)\n}\n",
      b! "package p\n\nimport \"y/q\"\n\nfunc G() {\nq.B()\n}\n"].mapM parseGoFile = some srcs ∧
    LegalPackage srcs (b! "p") exRealName ∧ packageNames srcs = [b! "F", b! "G"] ∧
    ∃ src ∈ srcs, ∃ s l' a', (renderFile exEnv 3 0 exPair).2.args 4 = some l' ∧ l'[1]? = some a' ∧
      a'.shown exEnv.isPrint (renderFile exEnv 3 0 exPair).2 = .str s ∧
      (src.scope (b! "x/p") (packageNames srcs) exRealName).Means s (.symbol ⟨⟨b! "x/p", b! "p"⟩, b! "G"⟩) := by
  have hx : ∀ x ∈ [exPair_first, exPair_second], x = exPair_first ∨ x = exPair_second := by simp
  have hd : partsDeclared exPair [exPair_first, exPair_second] = [.name (b! "F"), .name (b! "G")] := rfl
  have hg : ∀ x ∈ [exPair_first, exPair_second], x.Good exRealName exEnv exPair (b! "x/p") (b! "p")
      (partsDeclared exPair [exPair_first, exPair_second]) := by
    intro x h1
    rw [hd]
    rcases hx x h1 with rfl | rfl
    · exact exPair_good1
    · exact exPair_good2
  have hu : ∀ x ∈ [exPair_first, exPair_second], ∀ y ∈ [exPair_first, exPair_second], x.ptr ≠ y.ptr →
      Undisturbed exPair x.ptr y.ptr := by
    intro x h1 y h2 h3
    rcases hx x h1 with rfl | rfl <;> rcases hx y h2 with rfl | rfl
    · exact absurd rfl h3
    · exact exPair_undisturbed.1
    · exact exPair_undisturbed.2
    · exact absurd rfl h3
  obtain ⟨h', hr⟩ : ∃ h', RenderedInTurn exEnv 3 exPair [0, 1] [b! "package p\n\nimport \"x/q\"\n\nfunc F() {\nq.A(G)\n}\n",
      b! "package p\n\nimport \"y/q\"\n\nfunc G() {\nq.B()\n}\n"] h' := by
    refine (C63_in_turn (by decide) (fun p hp q hq hne => ?_) fun p _ => (exEnv_byString _ _).writes).2
      (.cons ⟨_, exPair_text1, rfl⟩ (.cons ⟨_, exPair_text2, rfl⟩ .nil))
    simp only [List.mem_cons, List.not_mem_nil, or_false] at hp hq
    rcases hp with rfl | rfl <;> rcases hq with rfl | rfl
    · exact absurd rfl hne
    · exact exPair_undisturbed.1
    · exact exPair_undisturbed.2
    · exact absurd rfl hne
  obtain ⟨srcs, h1, h2, h3⟩ := C69_package (xs := [exPair_first, exPair_second]) (name := b! "p") (by decide) hg
    (by rw [hd]; decide) (by rw [hd]; decide) (by decide) hu (fun x _ => (exEnv_byString _ _).writes) hr
  have h4 : packageDeclared srcs = _ := declared_parts (h3.imp fun x src h4 => h4.declared)
  have h5 : packageNames srcs = [b! "F", b! "G"] := by rw [names_eq, h4, hd]; rfl
  cases h1 with
  | cons k1 h1 =>
  cases h1 with
  | cons k2 h1 =>
  cases h1
  cases h3 with
  | cons k3 h3 =>
  obtain ⟨t1, k4, k5⟩ := k1
  obtain ⟨t2, k6, k7⟩ := k2
  have hf : ∀ t out, exEnv.format t = some out → t = out := by
    intro t out h6
    simp only [exEnv] at h6
    split at h6
    · cases h6
    · exact Option.some.inj h6
  cases hf _ _ k4
  cases hf _ _ k6
  refine ⟨_, ?_, h2, h5, _, List.mem_cons_self, ?_⟩
  · simp only [List.mapM_cons, k5, k7]
    rfl
  · obtain ⟨l', a', s, m1, m2, m3, m4⟩ := k3.refers (.func 2) (by simp [exPair_first]) 4 _ 1 _ _
      (.func rfl (List.mem_singleton.2 rfl)) rfl rfl
      (.func (fn := { name := b! "G", parent := some 1, code := [.line (b! "%s()\n") 5] }) (file := exPair_second.file) rfl rfl
        rfl rfl) trivial
      (by decide) (by simp) (by rw [h5]; exact ⟨by decide, by decide, by decide⟩)
    exact ⟨s, l', a', m1, m2, m3, m4⟩

end Gopoet
