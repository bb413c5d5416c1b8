import Verif.Spec.Growing
import Verif.Props.Independent
import Verif.Props.Renamed
import Verif.Proof.UsedImports
/-! Property C71: adding to a file leaves what is there as it was. -/

namespace Gopoet
open Imports

theorem QM.forEach_append {α : Type} (f : α → QM Unit) : ∀ (l m : List α),
    QM.forEach f (l ++ m) = QM.bind (QM.forEach f l) fun _ => QM.forEach f m
  | [], m => by
    funext h i
    simp [QM.forEach, QM.bind, QM.ret]
  | a :: l, m => by
    funext h i
    simp only [List.cons_append, QM.forEach, QM.forEach_append f l m]
    unfold QM.bind
    rcases f a h i with ⟨_ | _ | _, h', i'⟩ <;> rfl

theorem skeleton_withElements (h : Heap) (p : Ptr) (es : List FileElem) : (h.withElements p es).skeleton = h.skeleton := by
  have : (fun q => ((h.withElements p es).files q).map GoFile.skeleton) = fun q => (h.files q).map GoFile.skeleton := by
    funext q
    simp only [Heap.withElements]
    split
    · cases h.files q <;> rfl
    · rfl
  simp only [Heap.skeleton, this]
  rfl

theorem same_withElements (h : Heap) (p : Ptr) (es : List FileElem) (x : Place) : x.Same h (h.withElements p es) := by
  cases x <;> rfl

theorem local_elems (h : Heap) (es : List FileElem) (fuel : Nat) :
    QM.Local h.skeleton (fun x => ∃ e ∈ es, MadeOf h e x) (QM.forEach (FileElem.qualify fuel) es) :=
  .forEach fun e he => local_fileElem fun _ hx => ⟨e, he, .of_skeleton hx⟩

theorem Place.Same.files {h h' : Heap} {x : Place} (m m' : Ptr → Option GoFile) (hx : x.Same h h') :
    x.Same { h with files := m } { h' with files := m' } := by
  cases x <;> exact hx

theorem concatText_isOk {α : Type} {f : α → Outcome GoString} : ∀ {l : List α}, (∀ a ∈ l, ∃ t, f a = .ok t) →
    ∃ t, concatText f l = .ok t
  | [], _ => ⟨[], rfl⟩
  | a :: l, h => by
    obtain ⟨t, h1⟩ := h a List.mem_cons_self
    obtain ⟨u, h2⟩ := concatText_isOk (l := l) fun b hb => h b (List.mem_cons_of_mem _ hb)
    exact ⟨t ++ u, by simp [concatText, h1, h2]⟩

theorem forall₂_unique {α β : Type} {R : α → β → Prop} (hR : ∀ a b c, R a b → R a c → b = c) : ∀ {l : List α} {m n : List β},
    List.Forall₂ R l m → List.Forall₂ R l n → m = n
  | _, _, _, .nil, .nil => rfl
  | _, _, _, .cons h1 h2, .cons h3 h4 => by rw [hR _ _ _ h1 h3, forall₂_unique hR h2 h4]

theorem forall₂_split {α β : Type} {R : α → β → Prop} : ∀ {l l' : List α} {m : List β}, List.Forall₂ R (l ++ l') m →
    ∃ a b, List.Forall₂ R l a ∧ List.Forall₂ R l' b ∧ m = a ++ b
  | [], _, m, h => ⟨[], m, .nil, h, rfl⟩
  | _ :: l, _, _, .cons h1 h2 => by
    obtain ⟨a, b, h3, h4, rfl⟩ := forall₂_split h2
    exact ⟨_ :: a, b, .cons h1 h3, h4, rfl⟩

/-- C71: if elements are added to a file that share nothing with those that are there, then what was written for the file
before is still written, with the same names for the packages that it imports: the new text has the import statements
that were there and maybe more, the same text for the elements that were there, and then the text of the new ones. -/
theorem C71_added {env : Env} {fuel : Nat} {p : Ptr} {h h' : Heap} {f f' : GoFile} {text : GoString} {es more : List FileElem}
    (hi : Reachable f.imports) (hf : h.files p = some f) (he : f.elements = es ++ more) (hu : SharesNothing h es more)
    (henv : ∀ e ∈ es, env.ByString h e) (hr : renderFile env fuel p h = (.ok text, h')) (hf' : h'.files p = some f') :
    ∃ text0 h0 f0 elems extra, renderFile env fuel p (h.withElements p es) = (.ok text0, h0) ∧ h0.files p = some f0 ∧
      (∀ x ∈ f0.imports.importedPaths, x ∈ f'.imports.importedPaths ∧ f'.imports.qualifierOf x = f0.imports.qualifierOf x) ∧
      (∀ s ∈ f0.imports.importSpecs, s ∈ f'.imports.importSpecs) ∧
      elems.length = es.length ∧ LaidOut f0 elems text0 ∧ LaidOut f' (elems ++ extra) text := by
  obtain ⟨g, i2, h1, h2, h3, -⟩ := renderFile_ok hr
  rw [hf] at h1
  obtain rfl := Option.some.inj h1
  obtain ⟨g', i2', elems', h1, h4, h5, h6⟩ := C29_layout hr
  rw [hf] at h1
  obtain rfl := Option.some.inj h1
  have hi2 : i2' = i2 := by
    rw [h3, upd_same] at h4
    exact (congrArg GoFile.imports (Option.some.inj h4)).symm
  subst hi2
  rw [hf'] at h4
  obtain rfl := Option.some.inj h4
  -- the qualification of the earlier elements comes first
  rw [he, QM.forEach_append] at h2
  obtain ⟨u, h1, i1, h7, h8⟩ := QM.bind_eq_ok h2
  set h0 := h.withElements p es with hh0
  have sk0 : h0.skeleton = h.skeleton := skeleton_withElements h p es
  have le := local_elems h es fuel
  have lm := local_elems h more fuel
  have hf0 : h0.files p = some { f with elements := es } := by simp [hh0, Heap.withElements, hf]
  obtain ⟨d1, d2, d3⟩ := le.det h h0 f.imports rfl sk0 fun y _ => same_withElements h p es y
  have s1 := le.skel h f.imports rfl
  have s01 := le.skel h0 f.imports sk0
  have o1 := le.only h f.imports rfl
  have o01 := le.only h0 f.imports sk0
  have st1 := steps_fileElems fuel es h f.imports
  rcases h9 : QM.forEach (FileElem.qualify fuel) es h0 f.imports with ⟨o, h01, i01⟩
  rw [h7, h9] at d1 d2 d3
  rw [h7] at s1 o1 st1
  rw [h9] at s01 o01
  dsimp only at d1 d2 d3 s1 s01 o1 o01 st1
  subst d1 d2
  have st2 := steps_fileElems fuel more h1 i01
  have s2 := lm.skel h1 i01 s1
  have o2 := lm.only h1 i01 s1
  rw [h8] at st2 s2 o2
  dsimp only at st2 s2 o2
  -- the text of the earlier elements is the same
  have hq0 := qualifyFile_eq (fuel := fuel) hf0
  dsimp only at hq0
  rw [h9] at hq0
  dsimp only at hq0
  set A : Heap := { h01 with files := upd h01.files p { f with elements := es, imports := i01 } } with hA
  have skA : A.skeleton = h.skeleton := by
    have := (qualifyFile_only fuel p h0).1
    rw [hq0] at this
    exact this.trans sk0
  have skB : h'.skeleton = h.skeleton := by
    have := (C63_changes_only env fuel p h).1
    rw [hr] at this
    exact this
  have kA : ShowsKept h0 A := by
    have := (qualifyFile_only fuel p h0).2.2.2
    rw [hq0] at this
    exact this
  have key : ∀ x, ¬ (∃ e ∈ more, MadeOf h e x) → x.Same A h' := by
    intro x hx
    have k1 : x.Same h01 h1 := by
      by_cases hm : ∃ e ∈ es, MadeOf h e x
      · exact (d3 x hm).symm
      · exact (o01 x hm).symm.trans ((same_withElements h p es x).symm.trans (o1 x hm))
    have k2 := k1.trans (o2 x hx)
    cases x <;> exact k2
  have htext : ∀ e ∈ es, FileElem.text env h' fuel e = FileElem.text env A fuel e := by
    intro e hees
    refine SameText.text (env := env) ⟨skB.trans skA.symm, ((henv e hees).congr skA).text, fun x hm => key x fun hx => ?_,
      fun x hm => key x fun hx => ?_⟩ fuel
    · exact (hu x hx e hees).1 ((MadeOf.congr skA).1 hm)
    · have hs0 : Shows h0 e x := kA.shows (skA.trans sk0.symm) hm
      exact (hu x hx e hees).2 (ShowsKept.shows (h := h) (h' := h0) ⟨(ShowsKept.refl h).args, (ShowsKept.refl h).templs⟩ sk0 hs0)
  rw [he] at h5
  obtain ⟨ts, us, h10, h11, rfl⟩ := forall₂_split h5
  have h10' : List.Forall₂ (fun e t => FileElem.text env A fuel e = .ok t) es ts :=
    (forall₂_congr_left fun e hees t => by rw [htext e hees]).1 h10
  obtain ⟨text0, ht0⟩ : ∃ text0, renderFile env fuel p h0 = (.ok text0, A) := by
    obtain ⟨body, hb⟩ := concatText_isOk (f := fun e => (FileElem.text env A fuel e).bind fun s => .ok (b! "\n" ++ s)) (l := es)
      fun e hees => by
        obtain ⟨t, -, ht⟩ := forall₂_mem_left h10' hees
        exact ⟨_, by rw [ht]; rfl⟩
    have hfA : deref A.files p = .ok { f with elements := es, imports := i01 } := by simp [hA, deref]
    have htx : ∃ t, GoFile.text env A fuel { f with elements := es, imports := i01 } = .ok t := by
      rw [GoFile.text]
      dsimp only
      rw [hb]
      exact ⟨_, rfl⟩
    obtain ⟨t, htx⟩ := htx
    exact ⟨t, by rw [renderFile, hq0]; simp only [hfA, Outcome.bind, htx]⟩
  obtain ⟨f0, j, elems0, m1, m2, m3, m4⟩ := C29_layout ht0
  rw [hf0] at m1
  obtain rfl := Option.some.inj m1
  have hts : elems0 = ts := by
    refine forall₂_unique (R := fun e t => FileElem.text env A fuel e = .ok t) (fun a b c h1 h2 => Outcome.ok.inj (h1.symm.trans h2)) m3 h10'
  subst hts
  have hj : j = i01 := by
    simp only [hA, upd_same] at m2
    exact (congrArg GoFile.imports (Option.some.inj m2)).symm
  subst hj
  have inv1 := st1.evolves.inv hi.inv
  have inv2 := st2.evolves.inv inv1
  have hext := st2.evolves.ext
  refine ⟨text0, A, _, elems0, us, ht0, m2, fun x hx => ?_, fun s hs => ?_, m3.length_eq.symm, m4, h6⟩
  · obtain ⟨d, hd⟩ := mem_importedPaths_iff.1 hx
    have hd' := hext.keeps _ _ hd
    exact ⟨mem_importedPaths_iff.2 ⟨d, hd'⟩, by rw [qualifierOf_get inv1 hd, qualifierOf_get inv2 hd']⟩
  · obtain ⟨d, hd, ha⟩ := (mem_importSpecs inv1 s).1 hs
    exact (mem_importSpecs inv2 s).2 ⟨d, hext.keeps _ _ hd, ha⟩

/-- C71, for AddElement: the file has the earlier elements and the new one. -/
theorem C71_addElement {h g : Heap} {p : Ptr} {e : FileElem} {f : GoFile} (hf : h.files p = some f) (ha : addElement h p e = .ok g) :
    ∃ f', g.files p = some f' ∧ f'.elements = f.elements ++ [e] ∧ f'.imports = f.imports := by
  obtain ⟨h', h1, h2⟩ := bind_eq_ok ha
  obtain ⟨file, h3, h4⟩ := bind_eq_ok h2
  cases h4
  have hfiles : h'.files = h.files := by
    cases e with
    | values q =>
      obtain ⟨d, -, h5⟩ := bind_eq_ok h1
      obtain ⟨m, -, h6⟩ := bind_eq_ok h5
      cases h6
      rfl
    | types q =>
      obtain ⟨d, -, h5⟩ := bind_eq_ok h1
      obtain ⟨m, -, h6⟩ := bind_eq_ok h5
      cases h6
      rfl
    | func q =>
      obtain ⟨m, -, h6⟩ := bind_eq_ok h1
      cases h6
      rfl
  rw [hfiles, deref, hf] at h3
  cases h3
  exact ⟨_, upd_same _ _ _, rfl, rfl⟩

/-- A file of package x/p with a function whose code mentions A of package x/q, and another one whose code mentions B of
package y/q and the first function. -/
def exGrowing : Heap where
  files p := if p = 0 then some { name := b! "p.go", packageName := b! "p", imports := newImportsFor (b! "x/p"), elements := [.func 1, .func 3] }
    else none
  funcs p := if p = 1 then some { name := b! "F", parent := some 0, code := [.line (b! "%s()\n") 2] }
    else if p = 3 then some { name := b! "G", parent := some 0, code := [.line (b! "%s(%s)\n") 4] } else none
  args p := if p = 2 then some [.symbol ⟨⟨b! "x/q", b! "q"⟩, b! "A"⟩]
    else if p = 4 then some [.symbol ⟨⟨b! "y/q", b! "q"⟩, b! "B"⟩, .func 1] else none

example : (renderFile exEnv 3 0 (exGrowing.withElements 0 [.func 1])).1 =
    .ok (b! "package p\n\nimport \"x/q\"\n\nfunc F() {\nq.A()\n}\n") := by decide
example : (renderFile exEnv 3 0 exGrowing).1 =
    .ok (b! "package p\n\nimport \"x/q\"\nimport q1 \"y/q\"\n\nfunc F() {\nq.A()\n}\n\nfunc G() {\nq1.B(F)\n}\n") := by decide

theorem exGrowing_code {p : Ptr} {x : CodeElem} (hx : CodeIn exGrowing (.func p) x) :
    (p = 1 ∧ x = .line (b! "%s()\n") 2) ∨ (p = 3 ∧ x = .line (b! "%s(%s)\n") 4) := by
  cases hx with
  | func h1 h2 =>
    simp only [exGrowing] at h1
    split at h1
    · cases h1; rename_i hp; exact .inl ⟨hp, by simpa using h2⟩
    · split at h1
      · cases h1; rename_i hp; exact .inr ⟨hp, by simpa using h2⟩
      · cases h1

/-- The two functions share nothing: the second one mentions the first one by name only. -/
example : SharesNothing exGrowing [.func 1] [.func 3] := by
  rintro x ⟨e, he, hm⟩ e' he'
  simp only [List.mem_singleton] at he he'
  subst he he'
  have hx : x = .func 3 ∨ x = .args 4 := by
    cases hm with
    | func => exact .inl rfl
    | code h1 =>
      rcases exGrowing_code h1 with ⟨h2, -⟩ | ⟨-, rfl⟩
      · exact absurd h2 (by decide)
      · exact .inr rfl
  refine ⟨fun hm' => ?_, fun hs => ?_⟩
  · have hx' : x = .func 1 ∨ x = .args 2 := by
      cases hm' with
      | func => exact .inl rfl
      | code h1 =>
        rcases exGrowing_code h1 with ⟨-, rfl⟩ | ⟨h2, -⟩
        · exact .inr rfl
        · exact absurd h2 (by decide)
    rcases hx with rfl | rfl <;> rcases hx' with h | h <;> cases h
  · cases hs with
    | arg h1 h2 h3 h4 =>
      rcases exGrowing_code h1 with ⟨-, h5⟩ | ⟨h5, -⟩
      · cases h5
        cases h2
        simp only [List.mem_singleton] at h3
        subst h3
        cases h4
      · exact absurd h5 (by decide)
    | data h1 => rcases exGrowing_code h1 with ⟨-, h5⟩ | ⟨-, h5⟩ <;> cases h5

end Gopoet
