import Verif.Proof.SameLemmas
import Verif.Props.Whole
/-! Property C43: the order of map entries and the output. -/

namespace Gopoet
open Imports

theorem SameTables.inv {i j : Imports} (h : SameTables i j) (hi : Inv i) (hj : j.Maps) : Inv j where
  nodupPaths := hj.1
  nodupNames := hj.2
  toName p d hp := by rw [h.byPath] at hp; rw [h.byName]; exact hi.toName p d hp
  toPath q p hq := by
    rw [h.byName] at hq
    obtain ⟨d, h1, h2⟩ := hi.toPath q p hq
    exact ⟨d, by rw [h.byPath]; exact h1, h2⟩
  ownAbsent := by rw [h.byPath, h.own]; exact hi.ownAbsent
  nonempty p d hp := by rw [h.byPath] at hp; exact hi.nonempty p d hp

/-- C43 in full: whatever the order of map entries is, the same file gives the same text (or fails in
the same way). Of what is outside of gopoet, this is assumed (`OrderBlind`). -/
def C43_full : Prop := ∀ (env : Env), OrderBlind env → ∀ (fuel : Nat) (p : Ptr) (h h1 : Heap),
  SameButOrder h h1 → (∀ q f, h.files q = some f → Reachable f.imports) → (∀ q f, h1.files q = some f → f.imports.Maps) →
  (∀ q t, h.templs q = some t → PlainData t.data) → (renderFile env fuel p h1).1 = (renderFile env fuel p h).1

/-- C43: the import statements do not depend on the order of the entries in the tables of Imports. -/
theorem C43_import_statements {i j : Imports} (hi : Reachable i) (hs : SameTables i j) (hj : j.Maps) :
    j.importSpecs = i.importSpecs :=
  importSpecs_eq_of_get (hs.inv hi.inv hj) hi.inv hs.byPath

/-- C43: the order of the entries in the tables of Imports has no influence at all: with the same
order in template data, rendering gives the same result, or fails in the same way. So maps in template
data are the only thing whose order can matter. -/
theorem C43_imports_order {env : Env} (hb : OrderBlind env) (fuel : Nat) (p : Ptr) {h h1 : Heap} (hs : SameButOrder h h1)
    (ht : h1.templs = h.templs) (hr : ∀ f, h.files p = some f → Reachable f.imports)
    (hm : ∀ f, h1.files p = some f → f.imports.Maps) :
    (renderFile env fuel p h1).1 = (renderFile env fuel p h).1 := by
  refine (same_renderFile hb fuel p hs ht (fun f hf => (hr f hf).inv) fun f1 hf1 => ?_).1
  rcases hs.files p with ⟨-, h3⟩ | ⟨f, g, h2, h3, -, h5⟩
  · rw [hf1] at h3; simp at h3
  · rw [hf1] at h3
    cases h3
    exact h5.inv (hr f h2).inv (hm f1 hf1)

/-- C43: if, with one order of map entries, the packages that occur in template data only keep their
own names (no alias because of a conflict), then every order gives the same text. `nm` gives the names
of these packages: of all packages that occur in template data and are not imported from the beginning. -/
theorem C43_file_partial {env : Env} (hb : OrderBlind env) {fuel : Nat} {p : Ptr} {h h1 h' : Heap} {f f' : GoFile}
    {text : GoString} {nm : GoString → Option GoString} (hs : SameButOrder h h1) (hf : h.files p = some f)
    (hr : Reachable f.imports) (hm : ∀ f1, h1.files p = some f1 → f1.imports.Maps)
    (hd : ∀ q t, h.templs q = some t → PlainData t.data)
    (hn : ∀ q t, h.templs q = some t → ∀ pk ∈ (TVal.iface acceptsAll t.data).mentions h,
      pk.importPath = f.imports.pkgPath ∨ pk.importPath ∈ f.imports.importedPaths ∨ nm pk.importPath = some pk.name)
    (hrender : renderFile env fuel p h = (.ok text, h')) (hf' : h'.files p = some f')
    (hown : ∀ path d n, nm path = some n → f'.imports.importsByPath.get path = some d →
      d.packageName = baseName ⟨path, n⟩) :
    (renderFile env fuel p h1).1 = .ok text := by
  rcases hs.files p with ⟨h2, -⟩ | ⟨g, f1, h2, h3, -, h5⟩
  · rw [hf] at h2; simp at h2
  rw [hf] at h2
  cases h2
  have hi1 := h5.inv hr.inv (hm f1 h3)
  have htwin : Twin nm h f.imports h1 f1.imports := by
    refine ⟨hs, h5, hr.inv, hi1, fun q t t1 ht ht1 => ?_⟩
    refine .inr ⟨hd q t ht, fun pk hpk hnew => ?_, ?_⟩
    · rw [mentions_of_noSpecs {} h (hd q t ht).noSpecs] at hpk
      rcases hn q t ht pk hpk with h7 | h7 | h7
      · exact absurd h7 hnew.1
      · rw [Imports.importedPaths, mem_importPaths] at h7
        exact absurd hnew.2 h7
      · exact h7
    · rcases hs.templs q with ⟨h7, -⟩ | ⟨u, u1, h7, h8, -, h9⟩
      · rw [ht] at h7; simp at h7
      · rw [ht] at h7; rw [ht1] at h8
        cases h7; cases h8
        exact h9.plainData (hd q t ht)
  obtain ⟨h1', h6, -⟩ := twin_renderFile hb hf h3 htwin hrender hf' hown
  rw [h6]

/-- A template whose result lists which of some names occur as package names in the data. -/
def exBlindEnv : Env where
  isPrint _ := true
  fmtOther _ f _ := f
  exec _ _ v := some ([b! "a", b! "a1", b! "b"].filter (fun n =>
    ((TVal.iface acceptsAll v).mentions {}).any (fun pk => decide (pk.name = n)))).flatten
  format s := some s

theorem exBlindEnv_orderBlind : OrderBlind exBlindEnv := by
  refine ⟨fun _ _ _ _ _ => rfl, fun _ _ _ _ v v1 hr => ?_⟩
  have : ∀ q : Package → Bool, ((TVal.iface acceptsAll v1).mentions {}).any q = ((TVal.iface acceptsAll v).mentions {}).any q := by
    intro q
    have hp := (Reordered.iface (acc := acceptsAll) hr).mentions {}
    rw [Bool.eq_iff_iff]
    simp only [List.any_eq_true]
    exact ⟨fun ⟨x, h1, h2⟩ => ⟨x, hp.mem_iff.2 h1, h2⟩, fun ⟨x, h1, h2⟩ => ⟨x, hp.mem_iff.1 h1, h2⟩⟩
  simp only [exBlindEnv, this]

/-- A file of package x/p with a function whose code is a template, with the data given as a map. -/
def exMapFile (es : List (TVal × TVal)) : Heap where
  files p := if p = 0 then some { name := b! "p.go", packageName := b! "p", imports := newImportsFor (b! "x/p")
                                  elements := [.func 3] }
    else none
  funcs p := if p = 3 then some { name := b! "F", parent := some 0, code := [.line (b! "%s\n") 4, .templ 5] } else none
  args p := if p = 4 then some [.symbol ⟨⟨b! "y/q", b! "q"⟩, b! "N"⟩] else none
  templs p := if p = 5 then some ⟨0, .map es⟩ else none

theorem exMapFile_same {es es1 : List (TVal × TVal)} (hp : es.Perm es1) : SameButOrder (exMapFile es) (exMapFile es1) := by
  refine ⟨rfl, fun p => ?_, fun p => ?_⟩
  · simp only [exMapFile]
    split
    · exact .inr ⟨_, _, rfl, rfl, rfl, .refl _⟩
    · exact .inl ⟨rfl, rfl⟩
  · simp only [exMapFile]
    split
    · exact .inr ⟨_, _, rfl, rfl, rfl, .perm hp⟩
    · exact .inl ⟨rfl, rfl⟩

theorem exMapFile_reachable {es : List (TVal × TVal)} {q f} (hf : (exMapFile es).files q = some f) :
    Reachable f.imports := by
  simp only [exMapFile] at hf
  split at hf
  · cases hf; exact ⟨b! "x/p", [], rfl⟩
  · simp at hf

theorem exMapFile_maps {es : List (TVal × TVal)} {q f} (hf : (exMapFile es).files q = some f) : f.imports.Maps :=
  ⟨(exMapFile_reachable hf).inv.nodupPaths, (exMapFile_reachable hf).inv.nodupNames⟩

theorem exMapFile_plain {es : List (TVal × TVal)} (hp : PlainData (.map es)) {q t} (ht : (exMapFile es).templs q = some t) :
    PlainData t.data := by
  simp only [exMapFile] at ht
  split at ht
  · cases ht; exact hp
  · simp at ht

/-- The entries of a map with symbols of x/a and y/a; both packages are called a. -/
def exClash : List (TVal × TVal) :=
  [(.scalar 0, .symbol (exSymIn (b! "a"))), (.scalar 1, .symbol ⟨⟨b! "y/a", b! "a"⟩, b! "U"⟩)]

/-- C43 fails: which of the packages is renamed depends on the order in which reflection enumerates the
entries of the map (templates.go:205-226). -/
theorem C43_full_fails : ¬ C43_full := by
  intro hall
  have h1 : (renderFile exBlindEnv 3 0 (exMapFile exClash)).1 =
      .ok (b! "package p\n\nimport \"x/a\"\nimport a1 \"y/a\"\nimport \"y/q\"\n\nfunc F() {\nq.N\naa1}\n") := by decide
  have h2 : (renderFile exBlindEnv 3 0 (exMapFile exClash.reverse)).1 =
      .ok (b! "package p\n\nimport a1 \"x/a\"\nimport \"y/a\"\nimport \"y/q\"\n\nfunc F() {\nq.N\naa1}\n") := by decide
  have h3 := hall exBlindEnv exBlindEnv_orderBlind 3 0 _ _ (exMapFile_same (List.reverse_perm exClash).symm)
    (fun _ _ h => exMapFile_reachable h) (fun _ _ h => exMapFile_maps h)
    (fun _ _ h => exMapFile_plain ⟨rfl, rfl, rfl, rfl, rfl, rfl⟩ h)
  rw [h1, h2] at h3
  revert h3
  decide

/-- The same with a type of y/b instead. -/
def exNoClash : List (TVal × TVal) :=
  [(.scalar 0, .symbol (exSymIn (b! "a"))),
   (.scalar 1, .iface acceptsAll (.typeName (.slice (.named ⟨⟨b! "y/b", b! "b"⟩, b! "U"⟩))))]

def exNames (p : GoString) : Option GoString :=
  if p = b! "x/a" then some (b! "a") else if p = b! "y/b" then some (b! "b") else none

def exNoClashText : GoString :=
  b! "package p\n\nimport \"x/a\"\nimport \"y/b\"\nimport \"y/q\"\n\nfunc F() {\nq.N\nab}\n"

example : (renderFile exBlindEnv 3 0 (exMapFile exNoClash.reverse)).1 = .ok exNoClashText := by decide

/-- by `C43_file_partial` -/
example {es : List (TVal × TVal)} (hp : exNoClash.Perm es) : (renderFile exBlindEnv 3 0 (exMapFile es)).1 = .ok exNoClashText := by
  have h1 : (renderFile exBlindEnv 3 0 (exMapFile exNoClash)).1 = .ok exNoClashText := by decide
  refine C43_file_partial (nm := exNames) exBlindEnv_orderBlind (exMapFile_same hp) rfl (exMapFile_reachable (es := exNoClash) (q := 0) rfl)
    (fun _ h => exMapFile_maps h) (fun _ _ h => exMapFile_plain ⟨rfl, rfl, rfl, rfl, rfl, rfl⟩ h) ?_
    (h' := (renderFile exBlindEnv 3 0 (exMapFile exNoClash)).2) (by rw [← h1]) rfl ?_
  · intro q t ht pk hpk
    simp only [exMapFile] at ht
    split at ht
    · cases ht
      have hm : (TVal.iface acceptsAll (.map exNoClash)).mentions (exMapFile exNoClash) = [⟨b! "x/a", b! "a"⟩, ⟨b! "y/b", b! "b"⟩] := rfl
      rw [hm] at hpk
      simp only [List.mem_cons, List.not_mem_nil, or_false] at hpk
      rcases hpk with rfl | rfl
      · exact .inr (.inr (by decide))
      · exact .inr (.inr (by decide))
    · simp at ht
  · intro path d n hn hd
    simp only [exNames] at hn
    split at hn
    · rename_i he
      subst he
      cases hn
      have : d = ⟨b! "a", false⟩ := by revert hd; decide +revert
      subst this; decide
    · split at hn
      · rename_i he
        subst he
        cases hn
        have : d = ⟨b! "b", false⟩ := by revert hd; decide +revert
        subst this; decide
      · simp at hn

theorem get_of_perm {V : Type} {m m1 : GoMap GoString V} (hm : m.keys.Nodup) (hp : List.Perm m m1) (k : GoString) :
    m1.get k = m.get k := by
  have hm1 : m1.keys.Nodup := (hp.map _).nodup_iff.1 hm
  cases h : m.get k with
  | some v => exact GoMap.get_of_mem hm1 (hp.mem_iff.1 (GoMap.mem_of_get h))
  | none =>
    rw [GoMap.get_eq_none_iff] at h ⊢
    exact fun hk => h ((hp.map _).mem_iff.2 hk)

/-- `SameTables` and `Maps` are what permuting the tables of a reachable Imports gives. -/
theorem sameTables_of_perm {i j : Imports} (hi : Reachable i) (ho : j.pkgPath = i.pkgPath)
    (hp : List.Perm i.importsByPath j.importsByPath) (hn : List.Perm i.pathsByName j.pathsByName) : SameTables i j ∧ j.Maps :=
  ⟨⟨ho, get_of_perm hi.inv.nodupPaths hp, get_of_perm hi.inv.nodupNames hn⟩,
   (hp.map _).nodup_iff.1 hi.inv.nodupPaths, (hn.map _).nodup_iff.1 hi.inv.nodupNames⟩

/-- `exState` (see Props/Imports) with its tables enumerated backwards. -/
def exBackwards : Imports :=
  { exState with importsByPath := exState.importsByPath.reverse, pathsByName := exState.pathsByName.reverse }

theorem exBackwards_same : SameTables exState exBackwards ∧ exBackwards.Maps :=
  sameTables_of_perm exState_reachable rfl (List.reverse_perm _).symm (List.reverse_perm _).symm

example : exBackwards ≠ exState := by
  intro h
  have := congrArg (fun i : Imports => i.importsByPath.keys) h
  revert this
  decide
example : exBackwards.importSpecs = [⟨[], exA⟩, ⟨b! "foo2", exB⟩, ⟨[], exC⟩] := by
  rw [C43_import_statements exState_reachable exBackwards_same.1 exBackwards_same.2]
  decide

/-- The file with a conflict in its data, with the given imports. -/
def exWithImports (i : Imports) : Heap :=
  { exMapFile exClash with files := fun p => if p = 0 then some ⟨i, b! "p.go", [], [], b! "p", [], [.func 3]⟩ else none }

/-- by `C43_imports_order` -/
example : (renderFile exBlindEnv 3 0 (exWithImports exBackwards)).1 = (renderFile exBlindEnv 3 0 (exWithImports exState)).1 := by
  refine C43_imports_order exBlindEnv_orderBlind 3 0 ⟨rfl, fun q => ?_, fun q => ?_⟩ rfl ?_ ?_
  · dsimp only [exWithImports]
    split
    · exact .inr ⟨_, _, rfl, rfl, rfl, exBackwards_same.1⟩
    · exact .inl ⟨rfl, rfl⟩
  · dsimp only [exWithImports]
    rcases (exMapFile exClash).templs q with _ | t
    · exact .inl ⟨rfl, rfl⟩
    · exact .inr ⟨_, _, rfl, rfl, rfl, .refl _⟩
  · intro f hf
    cases hf
    exact exState_reachable
  · intro f hf
    cases hf
    exact exBackwards_same.2

end Gopoet
