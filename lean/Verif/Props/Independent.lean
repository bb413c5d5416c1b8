import Verif.Proof.IndependentText
import Verif.Props.Decls
import Verif.Props.Disk
import Verif.Props.Sharing
/-! # C63: files that share nothing do not influence each other -/

namespace Gopoet
open Imports

theorem qualifyFile_eq {fuel : Nat} {p : Ptr} {h : Heap} {f : GoFile} (hf : h.files p = some f) :
    qualifyFile fuel p h =
      ((QM.forEach (FileElem.qualify fuel) f.elements h f.imports).1,
        { (QM.forEach (FileElem.qualify fuel) f.elements h f.imports).2.1 with
          files := upd (QM.forEach (FileElem.qualify fuel) f.elements h f.imports).2.1.files p
            { f with imports := (QM.forEach (FileElem.qualify fuel) f.elements h f.imports).2.2 } }) := by
  simp only [qualifyFile, hf]

theorem local_file {h : Heap} {p : Ptr} {f : GoFile} (hf : h.files p = some f) (fuel : Nat) :
    QM.Local h.skeleton (FileMadeOf h p) (QM.forEach (FileElem.qualify fuel) f.elements) :=
  .forEach fun e he => local_fileElem fun _ hx => ⟨f, hf, e, he, .of_skeleton hx⟩

theorem files_skeleton {h h' : Heap} {p : Ptr} {f : GoFile} {i : Imports} (hs : h'.skeleton = h.skeleton)
    (hf : h'.files p = some f) (hi : i.pkgPath = f.imports.pkgPath) :
    ({ h' with files := upd h'.files p { f with imports := i } } : Heap).skeleton = h.skeleton := by
  rw [← hs]
  have := skeleton_upd GoFile.skeleton (a' := { f with imports := i }) hf (by simp [GoFile.skeleton, hi])
  simp only [Heap.skeleton, Heap.mk.injEq, and_true]
  exact this

/-- What writing a file leaves as it is. -/
theorem qualifyFile_only (fuel : Nat) (p : Ptr) (h : Heap) :
    (qualifyFile fuel p h).2.skeleton = h.skeleton ∧
    (∀ x, ¬ FileMadeOf h p x → x.Same h (qualifyFile fuel p h).2) ∧
    (∀ q, q ≠ p → (qualifyFile fuel p h).2.files q = h.files q) ∧ ShowsKept h (qualifyFile fuel p h).2 := by
  cases hf : h.files p with
  | none =>
    simp only [qualifyFile, hf]
    exact ⟨trivial, fun x _ => .refl _ _, fun _ _ => trivial, .refl _⟩
  | some f =>
    rw [qualifyFile_eq hf]
    have hl := local_file hf fuel
    have hst := steps_fileElems fuel f.elements h f.imports
    refine ⟨files_skeleton (hl.skel _ _ rfl) (by rw [hst.files, hf]) hst.evolves.ext.own, fun x hx => ?_,
      fun q hq => ?_, ⟨hst.showsKept.args, hst.showsKept.templs⟩⟩
    · have := hl.only h f.imports rfl x hx
      cases x <;> exact this
    · show upd _ _ _ q = _
      rw [upd_ne _ _ hq, hst.files]

/-- **C63 (a).** Whatever happens, writing a file changes only the types, signatures, arguments and template data
that the file is made of, and what the file itself imports. -/
theorem C63_changes_only (env : Env) (fuel : Nat) (p : Ptr) (h : Heap) :
    (renderFile env fuel p h).2.skeleton = h.skeleton ∧
    (∀ x, ¬ FileMadeOf h p x → x.Same h (renderFile env fuel p h).2) ∧
    (∀ q, q ≠ p → (renderFile env fuel p h).2.files q = h.files q) ∧
    ∀ f, h.files p = some f → ∃ i, (renderFile env fuel p h).2.files p = some { f with imports := i } := by
  rw [renderFile_heap]
  obtain ⟨h1, h2, h3, -⟩ := qualifyFile_only fuel p h
  refine ⟨h1, h2, h3, fun f hf => ?_⟩
  rw [qualifyFile_eq hf]
  exact ⟨_, upd_same _ _ _⟩

theorem templ_of_skeleton {h h' : Heap} (hs : h'.skeleton = h.skeleton) {p : Ptr} {t : Templ}
    (ht : h'.templs p = some t) : ∃ t', h.templs p = some t' ∧ t'.templ = t.templ := by
  have := congrFun (congrArg Heap.templs hs) p
  simp only [Heap.skeleton, ht, Option.map_some] at this
  obtain ⟨t', h1, h2⟩ := Option.map_eq_some_iff.1 this.symm
  exact ⟨t', h1, congrArg Templ.templ (a₁ := { t' with data := .scalar 0 }) (a₂ := { t with data := .scalar 0 }) h2⟩

theorem Env.ByString.congr {env : Env} {h h' : Heap} (hs : h'.skeleton = h.skeleton) {e : FileElem}
    (he : env.ByString h e) : env.ByString h' e where
  type := he.type
  value := he.value
  line format p hc := he.line format p (.of_skeleton (hs ▸ hc.skeleton))
  templ p t hc ht := by
    obtain ⟨t', h1, h2⟩ := templ_of_skeleton hs ht
    rw [← h2]
    exact he.templ p t' (.of_skeleton (hs ▸ hc.skeleton)) h1

/-- What is asked of formats and templates can be asked of the file before it is written. -/
theorem Env.FileByString.writes {env : Env} {fuel : Nat} {h : Heap} {p : Ptr} (he : env.FileByString h p) :
    env.WritesByString fuel h p := by
  intro f h' hf hq e hm
  have := (qualifyFile_only fuel p h).1
  rw [hq] at this
  exact ((he f hf e hm).congr this).text

/-- **C63 (b).** What writing a file does, what is written, and what is imported, depend only on the file, on what
it is made of and what it shows, and on names and the like (`Heap.skeleton`). -/
theorem C63_depends_only {env : Env} {h h2 : Heap} {p : Ptr} (fuel : Nat) (hs : h2.skeleton = h.skeleton)
    (hf : h2.files p = h.files p) (hsame : ∀ x, FileMadeOf h p x ∨ FileShows h p x → x.Same h h2)
    (henv : env.WritesByString fuel h p) :
    (renderFile env fuel p h2).1 = (renderFile env fuel p h).1 ∧
    (renderFile env fuel p h2).2.files p = (renderFile env fuel p h).2.files p ∧
    ∀ x, FileMadeOf h p x → x.Same (renderFile env fuel p h).2 (renderFile env fuel p h2).2 := by
  rw [renderFile_heap, renderFile_heap, renderFile, renderFile]
  cases hfp : h.files p with
  | none =>
    simp only [qualifyFile, hf, hfp, true_and]
    rintro x ⟨f, hx, -⟩
    rw [hfp] at hx
    cases hx
  | some f =>
    have hfp2 : h2.files p = some f := hf.trans hfp
    have hqf := fun h' e => henv f h' hfp ((qualifyFile_eq hfp).trans e)
    rw [qualifyFile_eq hfp, qualifyFile_eq hfp2]
    have hl := local_file hfp fuel
    have hst := steps_fileElems fuel f.elements h f.imports
    have hst2 := steps_fileElems fuel f.elements h2 f.imports
    obtain ⟨d1, d2, d3⟩ := hl.det h h2 f.imports rfl hs fun y hy => hsame y (.inl hy)
    have s1 := hl.skel h f.imports rfl
    have s2 := hl.skel h2 f.imports hs
    have o1 := hl.only h f.imports rfl
    have o2 := hl.only h2 f.imports hs
    rcases hx : QM.forEach (FileElem.qualify fuel) f.elements h f.imports with ⟨o, h', i'⟩
    rcases hx2 : QM.forEach (FileElem.qualify fuel) f.elements h2 f.imports with ⟨o2', h2', i2'⟩
    rw [hx] at d1 d2 d3 s1 o1 hst
    rw [hx2] at d1 d2 d3 s2 o2 hst2
    rw [hx] at hqf
    dsimp only at d1 d2 d3 s1 s2 o1 o2 hst hst2 hqf ⊢
    subst d1 d2
    refine ⟨?_, by simp only [upd_same], fun x hm => ?_⟩
    · cases o2' with
      | panic => rfl
      | hang => rfl
      | ok u =>
        cases u
        simp only [deref, upd_same, Outcome.bind]
        rw [GoFile.text, GoFile.text]
        have k1 : h'.skeleton = ({ h' with files := upd h'.files p { f with imports := i2' } } : Heap).skeleton := by
          rw [files_skeleton s1 (by rw [hst.files, hfp]) hst.evolves.ext.own, s1]
        have k2 : ({ h2' with files := upd h2'.files p { f with imports := i2' } } : Heap).skeleton = h.skeleton :=
          files_skeleton s2 (by rw [hst2.files, hfp2]) hst2.evolves.ext.own
        have hcong : ∀ e ∈ f.elements,
            (FileElem.text env { h2' with files := upd h2'.files p { f with imports := i2' } } fuel e) =
            (FileElem.text env { h' with files := upd h'.files p { f with imports := i2' } } fuel e) := by
          intro e he
          refine SameText.text (env := env) ⟨k2.trans (s1.symm.trans k1), hqf _ rfl e he,
            fun x hm => ?_, fun x hm => ?_⟩ fuel
          · have hmm : FileMadeOf h p x := ⟨f, hfp, e, he, (MadeOf.congr (k1.symm.trans s1)).1 hm⟩
            have := d3 x hmm
            cases x <;> exact this
          · have kk : ShowsKept h ({ h' with files := upd h'.files p { f with imports := i2' } } : Heap) :=
              ⟨hst.showsKept.args, hst.showsKept.templs⟩
            have hsh : FileShows h p x := ⟨f, hfp, e, he, kk.shows (k1.symm.trans s1) hm⟩
            have : x.Same h' h2' := by
              by_cases hmm : FileMadeOf h p x
              · exact d3 x hmm
              · exact (o1 x hmm).symm.trans ((hsame x (.inr hsh)).trans (o2 x hmm))
            cases x <;> exact this
        have : concatText (fun e => (FileElem.text env { h2' with files := upd h2'.files p { f with imports := i2' } }
              fuel e).bind fun s => .ok (b! "\n" ++ s)) f.elements =
            concatText (fun e => (FileElem.text env { h' with files := upd h'.files p { f with imports := i2' } }
              fuel e).bind fun s => .ok (b! "\n" ++ s)) f.elements :=
          concatText_congr fun e he => by rw [hcong e he]
        dsimp only
        rw [this]
    · have := d3 x hm
      cases x <;> exact this

/-- **C63 (c).** A file is written the same whether or not another one, that shares nothing with it, was written
before; and so it was imported the same. (Nor does it matter whether the other one could be written.) -/
theorem C63_undisturbed {env : Env} {h : Heap} {p q : Ptr} (fuel : Nat) (hpq : q ≠ p) (hu : Undisturbed h p q)
    (henv : env.WritesByString fuel h q) :
    (renderFile env fuel q (renderFile env fuel p h).2).1 = (renderFile env fuel q h).1 ∧
    (renderFile env fuel q (renderFile env fuel p h).2).2.files q = (renderFile env fuel q h).2.files q := by
  obtain ⟨h1, h2, h3, -⟩ := C63_changes_only env fuel p h
  obtain ⟨h4, h5, -⟩ := C63_depends_only fuel h1 (h3 q hpq) (fun x hx => h2 x fun hm => by
    obtain ⟨h6, h7⟩ := hu x hm
    exact hx.elim h6 h7) henv
  exact ⟨h4, h5⟩

theorem FileMadeOf.congr {h h' : Heap} (hs : h'.skeleton = h.skeleton) {p : Ptr} (hf : h'.files p = h.files p)
    {x : Place} : FileMadeOf h' p x ↔ FileMadeOf h p x := by
  simp only [FileMadeOf, hf, MadeOf.congr hs]

theorem FileShows.of_later {h h' : Heap} (hs : h'.skeleton = h.skeleton) (k : ShowsKept h h') {p : Ptr}
    (hf : h'.files p = h.files p) {x : Place} (hx : FileShows h' p x) : FileShows h p x := by
  obtain ⟨f, h1, e, h2, h3⟩ := hx
  exact ⟨f, hf ▸ h1, e, h2, k.shows hs h3⟩

theorem forall₂_congr_left {α β : Type} {R S : α → β → Prop} : ∀ {l : List α} {m : List β},
    (∀ a ∈ l, ∀ b, R a b ↔ S a b) → (List.Forall₂ R l m ↔ List.Forall₂ S l m)
  | [], m, _ => by cases m <;> simp
  | a :: l, [], _ => by simp
  | a :: l, b :: m, h => by
    rw [List.forall₂_cons, List.forall₂_cons, h a (by simp), forall₂_congr_left fun c hc => h c (by simp [hc])]

/-- Files are the same as in an earlier heap. -/
structure StillSame (h g : Heap) (ps : List Ptr) : Prop where
  skel : g.skeleton = h.skeleton
  files : ∀ p ∈ ps, g.files p = h.files p
  same : ∀ p ∈ ps, ∀ x, FileMadeOf h p x ∨ FileShows h p x → x.Same h g

theorem StillSame.step {env : Env} {fuel : Nat} {h g : Heap} {p : Ptr} {ps : List Ptr} (hp : p ∉ ps)
    (hu : ∀ q ∈ ps, p ≠ q → Undisturbed h p q) (s : StillSame h g (p :: ps)) :
    StillSame h (renderFile env fuel p g).2 ps := by
  obtain ⟨c1, c2, c3, -⟩ := C63_changes_only env fuel p g
  have hne : ∀ q ∈ ps, q ≠ p := fun q hq e => hp (e ▸ hq)
  refine ⟨c1.trans s.skel, fun q hq => (c3 q (hne q hq)).trans (s.files q (by simp [hq])), fun q hq x hx => ?_⟩
  refine (s.same q (by simp [hq]) x hx).trans (c2 x fun hm => ?_)
  obtain ⟨h1, h2⟩ := hu q hq (hne q hq).symm x ((FileMadeOf.congr s.skel (s.files p (by simp))).1 hm)
  exact hx.elim h1 h2

theorem StillSame.render {env : Env} {fuel : Nat} {h g : Heap} {ps : List Ptr} (s : StillSame h g ps) {p : Ptr} (hp : p ∈ ps)
    (henv : env.WritesByString fuel h p) : (renderFile env fuel p g).1 = (renderFile env fuel p h).1 :=
  (C63_depends_only fuel s.skel (s.files p hp) (s.same p hp) henv).1

theorem in_turn_later {env : Env} {fuel : Nat} {h : Heap} : ∀ {ps : List Ptr} {outs : List GoString} {g : Heap}, ps.Nodup →
    (∀ p ∈ ps, ∀ q ∈ ps, p ≠ q → Undisturbed h p q) → (∀ p ∈ ps, env.WritesByString fuel h p) → StillSame h g ps →
    ((∃ h', RenderedInTurn env fuel g ps outs h') ↔
      List.Forall₂ (fun p out => ∃ text, (renderFile env fuel p h).1 = .ok text ∧ env.format text = some out) ps outs)
  | [], outs, g, _, _, _, _ => by
    constructor
    · rintro ⟨h', hr⟩
      cases hr
      exact .nil
    · intro hr
      cases hr
      exact ⟨g, .nil⟩
  | p :: ps, outs, g, hn, hu, henv, hs => by
    obtain ⟨hp, hn⟩ := List.nodup_cons.1 hn
    have ih := fun outs => in_turn_later (outs := outs) hn (fun a ha b hb => hu a (by simp [ha]) b (by simp [hb]))
      (fun a ha => henv a (by simp [ha])) (hs.step (env := env) (fuel := fuel) hp fun q hq => hu p (by simp) q (by simp [hq]))
    have hr1 := hs.render (p := p) (by simp) (henv p (by simp))
    constructor
    · rintro ⟨h', hr⟩
      cases hr with
      | cons h1 h2 h3 =>
        refine .cons ⟨_, by rw [← hr1, h1], h2⟩ ?_
        rw [← ih, h1]
        exact ⟨h', h3⟩
    · intro hr
      cases hr with
      | cons h1 h2 =>
        obtain ⟨text, h3, h4⟩ := h1
        rw [← ih] at h2
        obtain ⟨h', h2⟩ := h2
        exact ⟨h', .cons (Prod.ext (hr1.trans h3) rfl) h4 h2⟩

/-- **C63 (d).** When files that share nothing are written one after the other, each is written as if it were the
only one. -/
theorem C63_in_turn {env : Env} {fuel : Nat} {ps : List Ptr} {outs : List GoString} {h : Heap} (hn : ps.Nodup)
    (hu : ∀ p ∈ ps, ∀ q ∈ ps, p ≠ q → Undisturbed h p q) (henv : ∀ p ∈ ps, env.WritesByString fuel h p) :
    (∃ h', RenderedInTurn env fuel h ps outs h') ↔
      List.Forall₂ (fun p out => ∃ text, (renderFile env fuel p h).1 = .ok text ∧ env.format text = some out) ps outs :=
  in_turn_later hn hu henv ⟨rfl, fun _ _ => rfl, fun _ _ _ _ => .refl _ _⟩

/-- **C63 (e).** In whatever order files that share nothing are written, the same is written for each. -/
theorem C63_any_order {env : Env} {fuel : Nat} {h h' : Heap} {ps ps' : List Ptr} {outs : List GoString}
    (hn : ps.Nodup) (hu : ∀ p ∈ ps, ∀ q ∈ ps, p ≠ q → Undisturbed h p q) (henv : ∀ p ∈ ps, env.WritesByString fuel h p)
    (hr : RenderedInTurn env fuel h ps outs h') (hp : ps'.Perm ps) :
    ∃ outs' h'', RenderedInTurn env fuel h ps' outs' h'' ∧ (ps'.zip outs').Perm (ps.zip outs) := by
  have h1 := (C63_in_turn hn hu henv).1 ⟨h', hr⟩
  have h2 : ∃ outs', List.Forall₂ (fun p out => ∃ text, (renderFile env fuel p h).1 = .ok text ∧
      env.format text = some out) ps' outs' ∧ (ps'.zip outs').Perm (ps.zip outs) := by
    clear hr hn hu henv h'
    induction hp generalizing outs with
    | nil => cases h1; exact ⟨[], .nil, .refl _⟩
    | cons p hp ih =>
      cases h1 with
      | cons h2 h3 =>
        obtain ⟨outs', h4, h5⟩ := ih h3
        exact ⟨_ :: outs', .cons h2 h4, h5.cons _⟩
    | swap a b l =>
      cases h1 with
      | cons h2 h3 =>
        cases h3 with
        | cons h4 h5 => exact ⟨_ :: _ :: _, .cons h4 (.cons h2 h5), .swap _ _ _⟩
    | trans _ _ ih1 ih2 =>
      obtain ⟨o1, h3, h4⟩ := ih2 h1
      obtain ⟨o2, h5, h6⟩ := ih1 h3
      exact ⟨o2, h5, h6.trans h4⟩
  obtain ⟨outs', h3, h4⟩ := h2
  obtain ⟨h'', h5⟩ := (C63_in_turn (hp.nodup_iff.2 hn)
    (fun a ha b hb => hu a (hp.mem_iff.1 ha) b (hp.mem_iff.1 hb)) (fun a ha => henv a (hp.mem_iff.1 ha))).2 h3
  exact ⟨outs', h'', h5, h4⟩

/-! ### Examples -/

/-- Two files: x/p has a struct type with fields of types of x/a/foo and x/b/foo, and x/q has a function that uses the
type and a symbol of x/b/foo. -/
def exApart : Heap where
  files p := if p = 0 then some { name := b! "p.go", packageName := b! "p", imports := newImportsFor (b! "x/p")
                                  elements := [.types 2] }
    else if p = 1 then some { name := b! "q.go", packageName := b! "q", imports := newImportsFor (b! "x/q")
                              elements := [.func 6] }
    else none
  typeDecls p := if p = 2 then some { types := [3] } else none
  types p := if p = 3 then some { name := b! "T", underlying := .struct [], structBody := [4, 5], parent := some 0 }
    else none
  fields p := if p = 4 then some { name := b! "A", type := .name (.named ⟨⟨b! "x/a/foo", b! "foo"⟩, b! "A"⟩) }
    else if p = 5 then some { name := b! "B", type := .name (.named ⟨⟨b! "x/b/foo", b! "foo"⟩, b! "B"⟩) }
    else none
  funcs p := if p = 6 then some { name := b! "G", parent := some 1, code := [.line (b! "%s, %s\n") 7] } else none
  args p := if p = 7 then some [.typeSpec 3, .symbol ⟨⟨b! "x/b/foo", b! "foo"⟩, b! "B"⟩] else none

theorem exApart_first {x : Place} (hx : FileMadeOf exApart 0 x) : x = .type 3 ∨ x = .field 4 ∨ x = .field 5 := by
  obtain ⟨f, hf, e, he, hm⟩ := hx
  cases hf
  rw [List.mem_singleton.1 he] at hm
  cases hm with
  | type h1 h2 h3 =>
    cases h1
    rw [List.mem_singleton.1 h2] at h3
    cases h3 with
    | self => exact .inl rfl
    | field h4 h5 =>
      cases h4
      simp only [List.mem_cons, List.not_mem_nil, or_false] at h5
      rcases h5 with rfl | rfl
      · exact .inr (.inl rfl)
      · exact .inr (.inr rfl)
    | spec h4 h5 h6 h7 =>
      cases h4
      simp only [List.mem_cons, List.not_mem_nil, or_false] at h5
      rcases h5 with rfl | rfl <;> cases h6 <;> cases h7
    | elem h4 h5 =>
      cases h4
      cases h5
  | code h1 => cases h1

theorem exApart_second {x : Place} (hx : FileMadeOf exApart 1 x) : x = .func 6 ∨ x = .args 7 := by
  obtain ⟨f, hf, e, he, hm⟩ := hx
  cases hf
  rw [List.mem_singleton.1 he] at hm
  cases hm with
  | func => exact .inl rfl
  | code h1 =>
    cases h1 with
    | func h2 h3 =>
      cases h2
      rw [List.mem_singleton.1 h3]
      exact .inr rfl

theorem exApart_shows {x : Place} (hx : FileShows exApart 1 x) : False := by
  obtain ⟨f, hf, e, he, hm⟩ := hx
  cases hf
  rw [List.mem_singleton.1 he] at hm
  cases hm with
  | arg h1 h2 h3 h4 =>
    cases h1 with
    | func h5 h6 =>
      cases h5
      cases List.mem_singleton.1 h6
      cases h2
      simp only [List.mem_cons, List.not_mem_nil, or_false] at h3
      rcases h3 with rfl | rfl
      · cases h4 with
        | unnamed h7 h8 => cases h7; simp at h8
      · cases h4
  | data h1 h2 h3 =>
    cases h1 with
    | func h5 h6 =>
      cases h5
      cases List.mem_singleton.1 h6

theorem exApart_undisturbed : Undisturbed exApart 0 1 := by
  intro x hx
  refine ⟨fun h1 => ?_, exApart_shows⟩
  rcases exApart_first hx with rfl | rfl | rfl <;> rcases exApart_second h1 with h2 | h2 <;> cases h2

theorem exEnv_byString (h : Heap) (p : Ptr) : exEnv.FileByString h p := fun _ _ _ _ =>
  ⟨fun _ _ _ _ _ => rfl, fun _ _ _ _ _ => rfl, fun _ _ _ _ _ _ _ _ => rfl, fun _ _ _ _ _ _ _ _ _ => rfl⟩

/-- The first file calls x/b/foo foo1. -/
example : (renderFile exEnv 3 0 exApart).1 = .ok (b! "package p\n\nimport \"x/a/foo\"\nimport foo1 \"x/b/foo\"\n\ntype T  struct {\nA foo.A\nB foo1.B\n}\n") := by
  decide +kernel

/-- The second one calls it foo, also after the first one was written. -/
example : (renderFile exEnv 3 1 (renderFile exEnv 3 0 exApart).2).1 =
    .ok (b! "package q\n\nimport \"x/b/foo\"\nimport \"x/p\"\n\nfunc G() {\np.T, foo.B\n}\n") := by
  rw [(C63_undisturbed 3 (by decide) exApart_undisturbed (exEnv_byString _ _).writes).1]
  decide +kernel

/-- The files of `exShared` share a line of code, and there it is not so: see `exShared_text2`. -/
example : ¬ Undisturbed exShared 0 1 := by
  intro h
  exact (h (.args 4) ⟨_, rfl, .func 2, by decide, .code (x := .line _ 4) (.func rfl List.mem_cons_self)⟩).1
    ⟨_, rfl, .func 3, by decide, .code (x := .line _ 4) (.func rfl List.mem_cons_self)⟩

example : (renderFile exEnv 3 1 (renderFile exEnv 3 0 exShared).2).1 ≠ (renderFile exEnv 3 1 exShared).1 := by
  decide +kernel

end Gopoet
