import Verif.Spec.Rearranged
import Verif.Proof.Led
import Verif.Props.Growing
/-! Property C73: elements in another order have the same text. -/

namespace Gopoet
open Imports

theorem SharesNothing.made {h : Heap} {a b : FileElem} (hs : SharesNothing h [a] [b]) {x : Place} (hx : MadeOf h b x) :
    ¬ MadeOf h a x ∧ ¬ Shows h a x :=
  hs x ⟨b, List.mem_singleton.2 rfl, hx⟩ a (List.mem_singleton.2 rfl)

theorem QM.forEach_at {α : Type} {f : α → QM Unit} {l r : List α} {a : α} {h h' : Heap} {i i' : Imports}
    (hx : QM.forEach f (l ++ a :: r) h i = (.ok (), h', i')) : ∃ h1 i1 h2 i2, QM.forEach f l h i = (.ok (), h1, i1) ∧
      f a h1 i1 = (.ok (), h2, i2) ∧ QM.forEach f r h2 i2 = (.ok (), h', i') := by
  rw [QM.forEach_append] at hx
  obtain ⟨⟨⟩, h1, i1, e1, e2⟩ := QM.bind_eq_ok hx
  rw [QM.forEach] at e2
  obtain ⟨⟨⟩, h2, i2, e3, e4⟩ := QM.bind_eq_ok e2
  exact ⟨h1, i1, h2, i2, e1, e3, e4⟩

/-- What the rest of another list of elements does. -/
theorem rearranged_rest {fuel : Nat} {h h' : Heap} {i i' : Imports} {es : List FileElem} (ha : NothingInCommon h es)
    (hq : QM.forEach (FileElem.qualify fuel) es h i = (.ok (), h', i')) : ∀ (r2 l2 : List FileElem) (g1 : Heap) (j1 : Imports),
    (∀ e ∈ r2, e ∈ es) → NothingInCommon h (l2 ++ r2) → g1.skeleton = h.skeleton →
    (∀ y, ¬ (∃ e ∈ l2, MadeOf h e y) → y.Same h g1) →
    Agree i' (QM.forEach (FileElem.qualify fuel) r2 g1 j1).2.2 →
    (QM.forEach (FileElem.qualify fuel) r2 g1 j1).1 = .ok () ∧
      ∀ e ∈ r2, ∀ y, MadeOf h e y → y.Same h' (QM.forEach (FileElem.qualify fuel) r2 g1 j1).2.1
  | [], _, _, _, _, _, _, _, _ => ⟨rfl, fun _ he => by simp at he⟩
  | e :: r2, l2, g1, j1, hm, ha2, hs, hy, hag => by
    obtain ⟨l, r, rfl⟩ := List.append_of_mem (hm e List.mem_cons_self)
    obtain ⟨h1, i1, h2, i2, q1, q2, q3⟩ := QM.forEach_at hq
    have s1 : h1.skeleton = h.skeleton := by have := (local_elems h l fuel).skel h i rfl; rwa [q1] at this
    have o1 := (local_elems h l fuel).only h i rfl
    rw [q1] at o1
    have le : QM.Local h.skeleton (MadeOf h e) (e.qualify fuel) := local_fileElem fun _ hx => .of_skeleton hx
    have s2 : h2.skeleton = h.skeleton := by have := le.skel h1 i1 s1; rwa [q2] at this
    have o3 := (local_elems h r fuel).only h2 i2 s2
    rw [q3] at o3
    have e3 := (synced_fileElems fuel r).ext h2 i2
    rw [q3] at e3
    dsimp only at o1 o3 e3
    -- the element has nothing in common with the others
    have apartL : ∀ x ∈ l, ∀ y, MadeOf h e y → ¬ MadeOf h x y := fun x hx y hye =>
      ((List.pairwise_append.1 ha).2.2 x hx e List.mem_cons_self).1.made hye |>.1
    have apartR : ∀ x ∈ r, ∀ y, MadeOf h e y → ¬ MadeOf h x y := fun x hx y hye =>
      ((List.pairwise_cons.1 (List.pairwise_append.1 ha).2.1).1 x hx).2.made hye |>.1
    have apartL2 : ∀ x ∈ l2, ∀ y, MadeOf h e y → ¬ MadeOf h x y := fun x hx y hye =>
      ((List.pairwise_append.1 ha2).2.2 x hx e List.mem_cons_self).1.made hye |>.1
    have apartR2 : ∀ x ∈ r2, ∀ y, MadeOf h e y → ¬ MadeOf h x y := fun x hx y hye =>
      ((List.pairwise_cons.1 (List.pairwise_append.1 ha2).2.1).1 x hx).2.made hye |>.1
    obtain ⟨d1, d2, d3⟩ := le.det h1 g1 i1 s1 hs fun y hye =>
      (o1 y fun ⟨x, hx, hxy⟩ => apartL x hx y hye hxy).symm.trans (hy y fun ⟨x, hx, hxy⟩ => apartL2 x hx y hye hxy)
    rw [q2] at d1 d2 d3
    dsimp only at d1 d2 d3
    -- the same with the other imports
    have ext : Ext (e.qualify fuel g1 j1).2.2 (QM.forEach (FileElem.qualify fuel) (e :: r2) g1 j1).2.2 := by
      rw [QM.forEach]
      unfold QM.bind
      rcases e.qualify fuel g1 j1 with ⟨_ | _ | _, h', i'⟩
      · exact (synced_fileElems fuel r2).ext h' i'
      · exact .refl _
      · exact .refl _
    obtain ⟨c1, c2⟩ := (synced_fileElem fuel e).same g1 i1 j1 (by rw [d2]; exact hag.before e3 ext)
    rcases hx : e.qualify fuel g1 j1 with ⟨o, g2, j2⟩
    rw [hx, d1] at c1
    rw [hx] at c2
    dsimp only at c1 c2
    subst c1
    rw [← c2] at d3
    have so := le.skel g1 j1 hs
    have oo := le.only g1 j1 hs
    rw [hx] at so oo
    dsimp only at so oo
    have hstep : QM.forEach (FileElem.qualify fuel) (e :: r2) g1 j1 = QM.forEach (FileElem.qualify fuel) r2 g2 j2 := by
      rw [QM.forEach]
      unfold QM.bind
      rw [hx]
    rw [hstep] at hag ⊢
    obtain ⟨c3, c4⟩ := rearranged_rest ha hq r2 (l2 ++ [e]) g2 j2 (fun x hx => hm x (List.mem_cons_of_mem _ hx)) (by simpa using ha2)
      so (fun y hn => (hy y fun ⟨x, h1, h2⟩ => hn ⟨x, by simp [h1], h2⟩).trans (oo y fun h2 => hn ⟨e, by simp, h2⟩)) hag
    refine ⟨c3, fun x hxm y hxy => ?_⟩
    rcases List.mem_cons.1 hxm with rfl | hxm
    · have o5 := (local_elems h r2 fuel).only g2 j2 so y fun ⟨z, hz, hzy⟩ => apartR2 z hz y hxy hzy
      exact (o3 y fun ⟨z, hz, hzy⟩ => apartR z hz y hxy hzy).symm.trans ((d3 y hxy).trans o5)
    · exact c4 x hxm y hxy
termination_by r2 => r2.length

/-- With other elements nothing else is imported, if the packages have their own names. -/
theorem rearranged_leads {fuel : Nat} {h h' : Heap} {i i' : Imports} {es : List FileElem} (ha : NothingInCommon h es)
    (hq : QM.forEach (FileElem.qualify fuel) es h i = (.ok (), h', i')) (hF : Inv i') (h0 : i'.importsByPath.get [] = none) :
    ∀ (r2 l2 : List FileElem) (g1 : Heap) (j1 : Imports),
    (∀ e ∈ r2, e ∈ es) → NothingInCommon h (l2 ++ r2) → g1.skeleton = h.skeleton →
    (∀ y, ¬ (∃ e ∈ l2, MadeOf h e y) → y.Same h g1) → Inv j1 → Ext j1 i' → (∀ e ∈ r2, ∀ pk, Visited g1 e pk → Fine i' j1 pk) →
    Ext (QM.forEach (FileElem.qualify fuel) r2 g1 j1).2.2 i'
  | [], _, _, _, _, _, _, _, _, hx, _ => hx
  | e :: r2, l2, g1, j1, hm, ha2, hs, hy, hj, hext, hfine => by
    obtain ⟨l, r, rfl⟩ := List.append_of_mem (hm e List.mem_cons_self)
    obtain ⟨h1, i1, h2, i2, q1, q2, q3⟩ := QM.forEach_at hq
    have s1 : h1.skeleton = h.skeleton := by have := (local_elems h l fuel).skel h i rfl; rwa [q1] at this
    have o1 := (local_elems h l fuel).only h i rfl
    rw [q1] at o1
    have le : QM.Local h.skeleton (MadeOf h e) (e.qualify fuel) := local_fileElem fun _ hx => .of_skeleton hx
    have e3 := (synced_fileElems fuel r).ext h2 i2
    rw [q3] at e3
    dsimp only at o1 e3
    have apartL : ∀ x ∈ l, ∀ y, MadeOf h e y → ¬ MadeOf h x y := fun x hx y hye =>
      ((List.pairwise_append.1 ha).2.2 x hx e List.mem_cons_self).1.made hye |>.1
    have apartL2 : ∀ x ∈ l2, ∀ y, MadeOf h e y → ¬ MadeOf h x y := fun x hx y hye =>
      ((List.pairwise_append.1 ha2).2.2 x hx e List.mem_cons_self).1.made hye |>.1
    obtain ⟨d1, d2, -⟩ := le.det h1 g1 i1 s1 hs fun y hye =>
      (o1 y fun ⟨x, hx, hxy⟩ => apartL x hx y hye hxy).symm.trans (hy y fun ⟨x, hx, hxy⟩ => apartL2 x hx y hye hxy)
    rw [q2] at d1 d2
    dsimp only at d1 d2
    rcases hx : e.qualify fuel g1 i1 with ⟨o, g2, j⟩
    rw [hx] at d1 d2
    dsimp only at d1 d2
    subst d1 d2
    obtain ⟨j2, e4, hext2⟩ := (followed_fileElem hF h0 fuel e).follow hx e3 hj hext (hfine e List.mem_cons_self)
    have l1 := (steps_fileElem fuel e).later e4
    have so := le.skel g1 j1 hs
    have oo := le.only g1 j1 hs
    rw [e4] at so oo
    dsimp only at so oo
    rw [QM.forEach, QM.bind_ok e4]
    exact rearranged_leads ha hq hF h0 r2 (l2 ++ [e]) g2 j2 (fun x hx => hm x (List.mem_cons_of_mem _ hx)) (by simpa using ha2)
      so (fun y hn => (hy y fun ⟨x, h1, h2⟩ => hn ⟨x, by simp [h1], h2⟩).trans (oo y fun h2 => hn ⟨e, by simp, h2⟩)) (l1.inv hj) hext2
      fun x hx => fine_later h0 (follows_fileElem x) l1 (hfine x (List.mem_cons_of_mem _ hx))
termination_by r2 => r2.length

theorem SameQualifiers.agree {i j : Imports} (hi : Inv i) (hj : Inv j) (ho : i.pkgPath = j.pkgPath) (h : SameQualifiers i j) :
    Agree i j :=
  ⟨ho, fun p d d' h1 h2 => by
    rw [← qualifierOf_get hi h1, ← qualifierOf_get hj h2]
    exact h p (mem_importedPaths_iff.2 ⟨d, h1⟩) (mem_importedPaths_iff.2 ⟨d', h2⟩)⟩

theorem forall₂_map_of {α β : Type} {R : α → β → Prop} {f : α → β} (hf : ∀ a b, R a b → b = f a) : ∀ {l : List α} {m : List β},
    List.Forall₂ R l m → m = l.map f
  | _, _, .nil => rfl
  | _, _, .cons h1 h2 => by rw [List.map_cons, ← hf _ _ h1, ← forall₂_map_of hf h2]

theorem forall₂_with_mem {α β : Type} {R : α → β → Prop} {l : List α} {m : List β} (h : List.Forall₂ R l m) :
    List.Forall₂ (fun a b => a ∈ l ∧ R a b) l m := by
  induction h with
  | nil => exact .nil
  | cons h1 _ ih => exact .cons ⟨List.mem_cons_self, h1⟩ (ih.imp fun a b h => ⟨List.mem_cons_of_mem _ h.1, h.2⟩)

theorem concatText_elems {F : FileElem → Outcome GoString} {t : FileElem → GoString} : ∀ {l : List FileElem},
    (∀ e ∈ l, F e = .ok (t e)) →
    concatText (fun e => (F e).bind fun s => .ok (b! "\n" ++ s)) l = .ok (l.flatMap fun e => b! "\n" ++ t e)
  | [], _ => rfl
  | e :: l, h => by
    rw [concatText, concatText_elems fun a ha => h a (List.mem_cons_of_mem _ ha), h e List.mem_cons_self]
    rfl

/-- The elements of both files have the same texts. -/
theorem rearranged_texts {env : Env} {fuel : Nat} {p : Ptr} {h h' : Heap} {f f' g : GoFile} {text : GoString} {es : List FileElem}
    (hi : Reachable f.imports) (hf : h.files p = some f) (ha : NothingInCommon h f.elements) (hsub : ∀ e ∈ es, e ∈ f.elements)
    (hes : NothingInCommon h es) (henv : ∀ e ∈ es, env.ByString h e) (hr : renderFile env fuel p h = (.ok text, h'))
    (hf' : h'.files p = some f') (hg : (renderFile env fuel p (h.withElements p es)).2.files p = some g)
    (hn : SameQualifiers f'.imports g.imports) :
    ∃ (t : FileElem → GoString) (text2 : GoString), (renderFile env fuel p (h.withElements p es)).1 = .ok text2 ∧
      (∀ e ∈ f.elements, FileElem.text env h' fuel e = .ok (t e)) ∧
      ∀ e ∈ es, FileElem.text env (renderFile env fuel p (h.withElements p es)).2 fuel e = .ok (t e) := by
  obtain ⟨f0, i2, h1, h2, h3, -⟩ := renderFile_ok hr
  rw [hf] at h1
  obtain rfl := Option.some.inj h1
  obtain ⟨f0, i2', elems, h1, h4, h5, h6⟩ := C29_layout hr
  rw [hf] at h1
  obtain rfl := Option.some.inj h1
  have hi2 : i2' = i2 := by
    rw [h3, upd_same] at h4
    exact (congrArg GoFile.imports (Option.some.inj h4)).symm
  subst hi2
  rw [hf'] at h4
  obtain rfl := Option.some.inj h4
  set h0 := h.withElements p es with hh0
  have sk0 : h0.skeleton = h.skeleton := skeleton_withElements h p es
  have hf0 : h0.files p = some { f with elements := es } := by simp [hh0, Heap.withElements, hf]
  have hq0 := qualifyFile_eq (fuel := fuel) hf0
  rw [renderFile_heap, hq0] at hg
  dsimp only at hq0 hg
  have hle := local_elems h es fuel
  have so := hle.skel h0 f.imports sk0
  have oo := hle.only h0 f.imports sk0
  have ext := (synced_fileElems fuel es).ext h0 f.imports
  have inv0 := ((steps_fileElems fuel es h0 f.imports).evolves).inv hi.inv
  have inv' := ((steps_fileElems fuel f.elements h f.imports).evolves).inv hi.inv
  have ext' := (synced_fileElems fuel f.elements).ext h f.imports
  rw [h2] at inv' ext'
  dsimp only at inv' ext'
  have rest := rearranged_rest ha h2 es [] h0 f.imports hsub (by simpa using hes) sk0 fun y _ => same_withElements h p es y
  have only' := (local_elems h f.elements fuel).only h f.imports rfl
  rw [h2] at only'
  dsimp only at only'
  rcases hx : QM.forEach (FileElem.qualify fuel) es h0 f.imports with ⟨o, g1, j1⟩
  rw [hx] at hq0 hg so oo ext inv0 rest
  dsimp only at hq0 hg so oo ext inv0 rest
  simp only [upd_same, Option.some.injEq] at hg
  subst hg
  obtain ⟨rfl, made⟩ := rest (hn.agree inv' inv0 (ext'.own.trans ext.own.symm))
  set A : Heap := { g1 with files := upd g1.files p { f with elements := es, imports := j1 } } with hA
  have skA : A.skeleton = h.skeleton := by
    have := (qualifyFile_only fuel p h0).1
    rw [hq0] at this
    exact this.trans sk0
  have skB : h'.skeleton = h.skeleton := by
    have := (C63_changes_only env fuel p h).1
    rw [hr] at this
    exact this
  have kB : ShowsKept h h' := by
    have := (qualifyFile_only fuel p h).2.2.2
    rwa [qualifyFile_of_renderFile hr] at this
  have htext : ∀ e ∈ es, FileElem.text env A fuel e = FileElem.text env h' fuel e := by
    intro e he
    have samemade : ∀ x, MadeOf h e x → x.Same h' A := fun x hm => by
      have := made e he x hm
      cases x <;> exact this
    refine SameText.text (env := env) ⟨skA.trans skB.symm, ((henv e he).congr skB).text, fun x hm => samemade x ((MadeOf.congr skB).1 hm),
      fun x hm => ?_⟩ fuel
    have hsh : Shows h e x := kB.shows skB hm
    by_cases hme : MadeOf h e x
    · exact samemade x hme
    · have other : ∀ l, NothingInCommon h l → e ∈ l → ¬ ∃ a ∈ l, MadeOf h a x := by
        rintro l hl hel ⟨a, hal, hax⟩
        by_cases hae : a = e
        · exact hme (hae ▸ hax)
        · have : SharesNothing h [e] [a] := by
            obtain ⟨l1, l2, rfl⟩ := List.append_of_mem hel
            rcases List.mem_append.1 hal with h1 | h1
            · exact ((List.pairwise_append.1 hl).2.2 a h1 e List.mem_cons_self).2
            · rcases List.mem_cons.1 h1 with h1 | h1
              · exact absurd h1 hae
              · exact ((List.pairwise_cons.1 (List.pairwise_append.1 hl).2.1).1 a h1).1
          exact (this.made hax).2 hsh
      have k1 := oo x (other es hes he)
      have k2 := only' x (other f.elements ha (hsub e he))
      have k3 : x.Same h h' := by cases x <;> exact k2
      have k4 : x.Same h0 A := by cases x <;> exact k1
      exact k3.symm.trans ((same_withElements h p es x).trans k4)
  set t : FileElem → GoString := fun e => match FileElem.text env h' fuel e with | .ok s => s | _ => [] with ht
  have tall : ∀ e ∈ f.elements, FileElem.text env h' fuel e = .ok (t e) := by
    intro e he
    obtain ⟨s, -, hs⟩ := forall₂_mem_left h5 he
    simp only [ht, hs]
  obtain ⟨text2, ht2⟩ : ∃ text2, renderFile env fuel p h0 = (.ok text2, A) := by
    obtain ⟨body, hb⟩ := concatText_isOk (f := fun e => (FileElem.text env A fuel e).bind fun s => .ok (b! "\n" ++ s)) (l := es)
      fun e he => by
        obtain ⟨t, -, ht⟩ := forall₂_mem_left h5 (hsub e he)
        exact ⟨_, by rw [htext e he, ht]; rfl⟩
    have hfA : deref A.files p = .ok { f with elements := es, imports := j1 } := by simp [hA, deref]
    have htx : ∃ t, GoFile.text env A fuel { f with elements := es, imports := j1 } = .ok t := by
      rw [GoFile.text]
      dsimp only
      rw [hb]
      exact ⟨_, rfl⟩
    obtain ⟨t, htx⟩ := htx
    exact ⟨t, by rw [renderFile, hq0]; simp only [hfA, Outcome.bind, htx]⟩
  refine ⟨t, text2, by rw [ht2], tall, fun e he => ?_⟩
  rw [ht2, htext e he]
  exact tall e (hsub e he)

/-- C73: an element has the same text in any other file that is written, with some of the elements or with all of them in
another order, if the packages that both files import have the same names in both. And the other file can be written if this one
can. -/
theorem C73_same_text {env : Env} {fuel : Nat} {p : Ptr} {h h' : Heap} {f f' g : GoFile} {text : GoString} {es : List FileElem}
    (hi : Reachable f.imports) (hf : h.files p = some f) (ha : NothingInCommon h f.elements) (hsub : ∀ e ∈ es, e ∈ f.elements)
    (hes : NothingInCommon h es) (henv : ∀ e ∈ es, env.ByString h e) (hr : renderFile env fuel p h = (.ok text, h'))
    (hf' : h'.files p = some f') (hg : (renderFile env fuel p (h.withElements p es)).2.files p = some g)
    (hn : SameQualifiers f'.imports g.imports) :
    ∃ t text2, (renderFile env fuel p (h.withElements p es)).1 = .ok text2 ∧ LaidOut f' (f.elements.map t) text ∧
      LaidOut g (es.map t) text2 := by
  obtain ⟨t, text2, h1, h2, h3⟩ := rearranged_texts hi hf ha hsub hes henv hr hf' hg hn
  refine ⟨t, text2, h1, ?_, ?_⟩
  · obtain ⟨f0, i2, elems, h4, h5, h6, h7⟩ := C29_layout hr
    rw [hf] at h4
    obtain rfl := Option.some.inj h4
    rw [hf'] at h5
    obtain rfl := Option.some.inj h5
    rwa [forall₂_map_of (f := t) (fun a b hab => ?_) (forall₂_with_mem h6)] at h7
    rw [h2 a hab.1] at hab
    exact (Outcome.ok.inj hab.2).symm
  · have hr2 : renderFile env fuel p (h.withElements p es) = (.ok text2, (renderFile env fuel p (h.withElements p es)).2) := by
      rw [← h1]
    obtain ⟨f0, i2, elems, h4, h5, h6, h7⟩ := C29_layout hr2
    have hf0 : (h.withElements p es).files p = some { f with elements := es } := by simp [Heap.withElements, hf]
    rw [hf0] at h4
    obtain rfl := Option.some.inj h4
    rw [hg] at h5
    obtain rfl := Option.some.inj h5
    rwa [forall₂_map_of (f := t) (fun a b hab => ?_) (forall₂_with_mem h6)] at h7
    rw [h3 a hab.1] at hab
    exact (Outcome.ok.inj hab.2).symm

theorem visited_withElements (h : Heap) (p : Ptr) (es : List FileElem) (e : FileElem) (pk : Package) :
    Visited (h.withElements p es) e pk ↔ Visited h e pk := by
  have hfiles : ∀ q, ((h.withElements p es).files q).map (·.package) = (h.files q).map (·.package) := by
    intro q
    simp only [Heap.withElements]
    split
    · cases h.files q <;> rfl
    · rfl
  obtain ⟨m1, m2⟩ := Moves.file (K := fun _ => False) (h := h) (files := (h.withElements p es).files) hfiles
  exact ⟨fun hv => (visited_moves m2 hv).resolve_left id, fun hv => (visited_moves m1 hv).resolve_left id⟩

theorem newlyVisited_perm {h : Heap} {p : Ptr} {f : GoFile} {es : List FileElem} (hp : es.Perm f.elements) (pk : Package) :
    NewlyVisited (h.withElements p es) { f with elements := es } pk ↔ NewlyVisited h f pk := by
  simp only [NewlyVisited, visited_withElements, hp.mem_iff]

/-- What a package that is imported for the first time gets. -/
theorem imported_as {env : Env} {fuel : Nat} {p : Ptr} {h h' : Heap} {f f' : GoFile} {text : GoString}
    (hi : Reachable f.imports) (hf : h.files p = some f) (hr : renderFile env fuel p h = (.ok text, h'))
    (hf' : h'.files p = some f') (h0 : [] ∉ f'.imports.importedPaths) (hd : NoNameTwice h f) (hone : OnePackageEach h f)
    {pk : Package} (hpk : NewlyVisited h f pk) :
    f'.imports.importsByPath.get pk.importPath = some ⟨pk.ownName, decide (pk.ownName ≠ pk.name)⟩ := by
  obtain ⟨he, -⟩ := qualifyFile_adds (qualifyFile_of_renderFile hr) hf hf'
  have inv' := he.inv hi.inv
  have himp : pk.importPath ∈ f'.imports.importedPaths :=
    (C62_imports_iff hf hr hf' hpk.2.1).2 (.inr ⟨hpk.2.2.1, hpk.1.choose, hpk.1.choose_spec.1, pk, hpk.1.choose_spec.2, rfl⟩)
  obtain ⟨d, hg⟩ := mem_importedPaths_iff.1 himp
  have hname := (C70_kept_iff hi hf hr hf' h0).2 ⟨hd, fun a b ha hb hab => by rw [hone a b ha hb hab]⟩ pk hpk
  rw [qualifierOf_get inv' hg] at hname
  rcases he.chosen hi.inv hg with h1 | ⟨-, a, -, h2, h3, -, h5, -⟩
  · exact absurd (mem_importedPaths_iff.2 ⟨d, h1⟩) hpk.2.2.2
  · have hav : NewlyVisited h f a := by
      refine ⟨h2.resolve_right fun h6 => h0 ?_, ?_⟩
      · rw [← h6, h3]
        exact himp
      · rw [h3]
        exact hpk.2
    obtain rfl := hone a pk hav hpk h3
    rw [hg]
    cases d
    simp only at h5 hname
    rw [h5, hname]

/-- A file with other elements imports nothing that this one does not import, and under the same names. -/
theorem rearranged_ext {env : Env} {fuel : Nat} {p : Ptr} {h h1 : Heap} {f f1 g : GoFile} {text : GoString} {es : List FileElem}
    (hi : Reachable f.imports) (hf : h.files p = some f) (ha : NothingInCommon h f.elements) (hsub : ∀ e ∈ es, e ∈ f.elements)
    (hes : NothingInCommon h es) (hd : NoNameTwice h f) (hone : OnePackageEach h f)
    (hr : renderFile env fuel p h = (.ok text, h1)) (hf1 : h1.files p = some f1) (h01 : [] ∉ f1.imports.importedPaths)
    (hg : (renderFile env fuel p (h.withElements p es)).2.files p = some g) : Ext g.imports f1.imports := by
  obtain ⟨f0, i2, k1, k2, k3, -⟩ := renderFile_ok hr
  rw [hf] at k1
  obtain rfl := Option.some.inj k1
  have hi2 : f1.imports = i2 := by
    rw [k3, upd_same] at hf1
    rw [← Option.some.inj hf1]
  have inv' := ((steps_fileElems fuel f.elements h f.imports).evolves).inv hi.inv
  have ext' := (synced_fileElems fuel f.elements).ext h f.imports
  rw [k2] at inv' ext'
  dsimp only at inv' ext'
  rw [← hi2] at inv' ext' k2
  have hf0 : (h.withElements p es).files p = some { f with elements := es } := by simp [Heap.withElements, hf]
  have hq0 := qualifyFile_eq (fuel := fuel) hf0
  rw [renderFile_heap, hq0] at hg
  simp only [upd_same, Option.some.injEq] at hg
  subst hg
  have h0 : f1.imports.importsByPath.get [] = none := by
    cases hx : f1.imports.importsByPath.get [] with
    | none => rfl
    | some d => exact absurd (mem_importedPaths_iff.2 ⟨d, hx⟩) h01
  refine rearranged_leads ha k2 inv' h0 es [] _ f.imports hsub (by simpa using hes) (skeleton_withElements h p es)
    (fun y _ => same_withElements h p es y) hi.inv ext' fun e he pk hv => ?_
  rw [visited_withElements] at hv
  by_cases h1 : pk.importPath = []
  · exact Kn.fine h0 (.inl h1)
  · by_cases h2 : pk.importPath = f.imports.pkgPath
    · exact .inl (.inl h2)
    · by_cases h3 : pk.importPath ∈ f.imports.importedPaths
      · obtain ⟨d, h4⟩ := mem_importedPaths_iff.1 h3
        exact .inl (.inr (by rw [h4]; simp))
      · refine .inr fun d hdd => ?_
        rw [imported_as hi hf hr hf1 h01 hd hone ⟨⟨e, hsub e he, hv⟩, h1, h2, h3⟩] at hdd
        exact (Option.some.inj hdd).symm

theorem rearranged_same {env : Env} {fuel : Nat} {p : Ptr} {h h1 : Heap} {f f1 g : GoFile} {text : GoString} {es : List FileElem}
    (hi : Reachable f.imports) (hf : h.files p = some f) (hr : renderFile env fuel p h = (.ok text, h1)) (hf1 : h1.files p = some f1)
    (hg : (renderFile env fuel p (h.withElements p es)).2.files p = some g) (he : Ext g.imports f1.imports) :
    SameQualifiers f1.imports g.imports := by
  obtain ⟨f0, i2, k1, k2, k3, -⟩ := renderFile_ok hr
  rw [hf] at k1
  obtain rfl := Option.some.inj k1
  have hi2 : f1.imports = i2 := by
    rw [k3, upd_same] at hf1
    rw [← Option.some.inj hf1]
  have inv' := ((steps_fileElems fuel f.elements h f.imports).evolves).inv hi.inv
  rw [k2] at inv'
  dsimp only at inv'
  rw [← hi2] at inv'
  have hf0 : (h.withElements p es).files p = some { f with elements := es } := by simp [Heap.withElements, hf]
  have hq0 := qualifyFile_eq (fuel := fuel) hf0
  have inv0 := ((steps_fileElems fuel es (h.withElements p es) f.imports).evolves).inv hi.inv
  rw [renderFile_heap, hq0] at hg
  simp only [upd_same, Option.some.injEq] at hg
  subst hg
  intro x hx1 hx2
  obtain ⟨d, hd⟩ := mem_importedPaths_iff.1 hx2
  rw [qualifierOf_get inv0 hd, qualifierOf_get inv' (he.keeps _ _ hd)]

/-- C73: if no two packages that a file has to import have the same name, then each element has the same text whatever else is in
the file: any file with some of the elements, in any order, can be written, and has the same texts of elements. It imports
nothing else, and under no other names. -/
theorem C73_some {env : Env} {fuel : Nat} {p : Ptr} {h h1 : Heap} {f f1 : GoFile} {text : GoString} {es : List FileElem}
    (hi : Reachable f.imports) (hf : h.files p = some f) (ha : NothingInCommon h f.elements) (hsub : ∀ e ∈ es, e ∈ f.elements)
    (hes : NothingInCommon h es) (henv : ∀ e ∈ es, env.ByString h e) (hd : NoNameTwice h f) (hone : OnePackageEach h f)
    (hr : renderFile env fuel p h = (.ok text, h1)) (hf1 : h1.files p = some f1) (h01 : [] ∉ f1.imports.importedPaths) :
    ∃ t text2 h2 f2, renderFile env fuel p (h.withElements p es) = (.ok text2, h2) ∧ h2.files p = some f2 ∧
      LaidOut f1 (f.elements.map t) text ∧ LaidOut f2 (es.map t) text2 ∧
      ∀ x ∈ f2.imports.importedPaths, x ∈ f1.imports.importedPaths ∧ f2.imports.qualifierOf x = f1.imports.qualifierOf x := by
  have hf0 : (h.withElements p es).files p = some { f with elements := es } := by simp [Heap.withElements, hf]
  obtain ⟨g, hg⟩ : ∃ g, (renderFile env fuel p (h.withElements p es)).2.files p = some g := by
    rw [renderFile_heap, qualifyFile_eq hf0]
    simp
  have ext := rearranged_ext hi hf ha hsub hes hd hone hr hf1 h01 hg
  have same := rearranged_same hi hf hr hf1 hg ext
  obtain ⟨t, text2, k1, k2, k3⟩ := C73_same_text hi hf ha hsub hes henv hr hf1 hg same
  refine ⟨t, text2, _, g, Prod.ext k1 rfl, hg, k2, k3, fun x hx => ?_⟩
  obtain ⟨d, hx'⟩ := mem_importedPaths_iff.1 hx
  have hx1 := mem_importedPaths_iff.2 ⟨d, ext.keeps _ _ hx'⟩
  exact ⟨hx1, (same x hx1 hx).symm⟩

/-- If no two packages that a file has to import have the same name, then the order of its elements is of no importance:
with the elements in another order, the text has the same texts of elements in that order, after the same package clause and import
statements, if it can be written. -/
theorem order_of_written {env : Env} {fuel : Nat} {p : Ptr} {h h1 h2 : Heap} {f f1 f2 : GoFile} {text text2 : GoString} {es : List FileElem}
    (hi : Reachable f.imports) (hf : h.files p = some f) (ha : NothingInCommon h f.elements) (hp : es.Perm f.elements)
    (henv : ∀ e ∈ f.elements, env.ByString h e) (hd : NoNameTwice h f) (hone : OnePackageEach h f)
    (hr : renderFile env fuel p h = (.ok text, h1)) (hf1 : h1.files p = some f1) (h01 : [] ∉ f1.imports.importedPaths)
    (hr2 : renderFile env fuel p (h.withElements p es) = (.ok text2, h2)) (hf2 : h2.files p = some f2)
    (h02 : [] ∉ f2.imports.importedPaths) :
    ∃ (head : GoString) (t : FileElem → GoString), text = head ++ f.elements.flatMap (fun e => b! "\n" ++ t e) ∧
      text2 = head ++ es.flatMap (fun e => b! "\n" ++ t e) := by
  have hf0 : (h.withElements p es).files p = some { f with elements := es } := by simp [Heap.withElements, hf]
  have hi0 : Reachable ({ f with elements := es } : GoFile).imports := hi
  obtain ⟨he1, -⟩ := qualifyFile_adds (qualifyFile_of_renderFile hr) hf hf1
  obtain ⟨he2, -⟩ := qualifyFile_adds (qualifyFile_of_renderFile hr2) hf0 hf2
  have inv1 := he1.inv hi.inv
  have inv2 := he2.inv hi.inv
  have nv := newlyVisited_perm (h := h) (p := p) hp
  have hd2 : NoNameTwice (h.withElements p es) { f with elements := es } := by
    simp only [NoNameTwice, nv]
    exact hd
  have hone2 : OnePackageEach (h.withElements p es) { f with elements := es } := by
    simp only [OnePackageEach, nv]
    exact hone
  -- the tables are the same
  have sub : ∀ {x d}, f1.imports.importsByPath.get x = some d → f2.imports.importsByPath.get x = some d := by
    intro x d hx
    have hx0 : x ≠ [] := by rintro rfl; exact h01 (mem_importedPaths_iff.2 ⟨d, hx⟩)
    rcases (C62_imports_iff hf hr hf1 hx0).1 (mem_importedPaths_iff.2 ⟨d, hx⟩) with h3 | ⟨h3, e, h4, pk, h5, rfl⟩
    · obtain ⟨d', h4⟩ := mem_importedPaths_iff.1 h3
      rw [he1.ext.keeps _ _ h4] at hx
      cases hx
      exact he2.ext.keeps _ _ h4
    · by_cases h6 : pk.importPath ∈ f.imports.importedPaths
      · obtain ⟨d', h4⟩ := mem_importedPaths_iff.1 h6
        rw [he1.ext.keeps _ _ h4] at hx
        cases hx
        exact he2.ext.keeps _ _ h4
      · have hv : NewlyVisited h f pk := ⟨⟨e, h4, h5⟩, hx0, h3, h6⟩
        rw [imported_as hi hf hr hf1 h01 hd hone hv] at hx
        rw [imported_as hi0 hf0 hr2 hf2 h02 hd2 hone2 ((nv pk).2 hv), hx]
  have sub2 : ∀ {x d}, f2.imports.importsByPath.get x = some d → f1.imports.importsByPath.get x = some d := by
    intro x d hx
    have hx0 : x ≠ [] := by rintro rfl; exact h02 (mem_importedPaths_iff.2 ⟨d, hx⟩)
    rcases (C62_imports_iff hf0 hr2 hf2 hx0).1 (mem_importedPaths_iff.2 ⟨d, hx⟩) with h3 | ⟨h3, e, h4, pk, h5, rfl⟩
    · obtain ⟨d', h4⟩ := mem_importedPaths_iff.1 h3
      rw [he2.ext.keeps _ _ h4] at hx
      cases hx
      exact he1.ext.keeps _ _ h4
    · by_cases h6 : pk.importPath ∈ f.imports.importedPaths
      · obtain ⟨d', h4⟩ := mem_importedPaths_iff.1 h6
        rw [he2.ext.keeps _ _ h4] at hx
        cases hx
        exact he1.ext.keeps _ _ h4
      · have hv : NewlyVisited (h.withElements p es) { f with elements := es } pk := ⟨⟨e, h4, h5⟩, hx0, h3, h6⟩
        rw [imported_as hi0 hf0 hr2 hf2 h02 hd2 hone2 hv] at hx
        rw [imported_as hi hf hr hf1 h01 hd hone ((nv pk).1 hv), hx]
  have hget : ∀ x, f2.imports.importsByPath.get x = f1.imports.importsByPath.get x := by
    intro x
    cases hx : f1.imports.importsByPath.get x with
    | some d => exact sub hx
    | none =>
      cases hx2 : f2.imports.importsByPath.get x with
      | none => rfl
      | some d => rw [sub2 hx2] at hx; cases hx
  have hspecs := importSpecs_eq_of_get inv2 inv1 hget
  have hsame : SameQualifiers f1.imports f2.imports := by
    intro x hx1 hx2
    obtain ⟨d, hd1⟩ := mem_importedPaths_iff.1 hx1
    rw [qualifierOf_get inv1 hd1, qualifierOf_get inv2 (sub hd1)]
  have hapart : NothingInCommon h es := (hp.pairwise_iff fun ⟨a, b⟩ => ⟨b, a⟩).2 ha
  obtain ⟨t, text2', h3, h4, h5⟩ := rearranged_texts (es := es) hi hf ha (fun e he => hp.mem_iff.1 he) hapart
    (fun e he => henv e (hp.mem_iff.1 he)) hr hf1 (by rw [hr2]; exact hf2) hsame
  rw [hr2] at h5
  obtain ⟨f', i1, g1, -, g2, g3⟩ := renderFile_ok hr
  rw [hf] at g1
  obtain rfl := Option.some.inj g1
  rw [g2, upd_same] at hf1
  obtain rfl := Option.some.inj hf1
  obtain ⟨f', i2, g1, -, g4, g5⟩ := renderFile_ok hr2
  rw [hf0] at g1
  obtain rfl := Option.some.inj g1
  rw [g4, upd_same] at hf2
  obtain rfl := Option.some.inj hf2
  simp only [GoFile.text, concatText_elems h4] at g3
  simp only [GoFile.text, concatText_elems h5] at g5
  dsimp only at hspecs
  rw [hspecs] at g5
  exact ⟨_, t, (Outcome.ok.inj g3).symm, (Outcome.ok.inj g5).symm⟩

/-- C73: if no two packages that a file has to import have the same name, then the order of its elements is of no importance:
with the elements in another order, the file can be written, and the text has the same texts of elements in that order, after the same package clause and import
statements. -/
theorem C73_order {env : Env} {fuel : Nat} {p : Ptr} {h h1 : Heap} {f f1 : GoFile} {text : GoString} {es : List FileElem}
    (hi : Reachable f.imports) (hf : h.files p = some f) (ha : NothingInCommon h f.elements) (hp : es.Perm f.elements)
    (henv : ∀ e ∈ f.elements, env.ByString h e) (hd : NoNameTwice h f) (hone : OnePackageEach h f)
    (hr : renderFile env fuel p h = (.ok text, h1)) (hf1 : h1.files p = some f1) (h01 : [] ∉ f1.imports.importedPaths) :
    ∃ (head : GoString) (t : FileElem → GoString), text = head ++ f.elements.flatMap (fun e => b! "\n" ++ t e) ∧
      (renderFile env fuel p (h.withElements p es)).1 = .ok (head ++ es.flatMap (fun e => b! "\n" ++ t e)) := by
  obtain ⟨-, text2, h2, f2, hr2, hf2, -, -, k⟩ := C73_some hi hf ha (fun e he => hp.mem_iff.1 he)
    ((hp.pairwise_iff fun ⟨a, b⟩ => ⟨b, a⟩).2 ha) (fun e he => henv e (hp.mem_iff.1 he)) hd hone hr hf1 h01
  obtain ⟨head, t, h3, h4⟩ := order_of_written hi hf ha hp henv hd hone hr hf1 h01 hr2 hf2 fun h0 => h01 (k _ h0).1
  exact ⟨head, t, h3, by rw [hr2, h4]⟩

/-- A file of package x/p with a function whose code mentions A of package x/q, and another one whose code mentions B of the package
with the given path and name. -/
def exTwoElems (path name : GoString) : Heap where
  files p := if p = 0 then some { name := b! "p.go", packageName := b! "p", imports := newImportsFor (b! "x/p"), elements := [.func 1, .func 3] }
    else none
  funcs p := if p = 1 then some { name := b! "F", parent := some 0, code := [.line (b! "%s()\n") 2] }
    else if p = 3 then some { name := b! "G", parent := some 0, code := [.line (b! "%s()\n") 4] } else none
  args p := if p = 2 then some [.symbol ⟨⟨b! "x/q", b! "q"⟩, b! "A"⟩]
    else if p = 4 then some [.symbol ⟨⟨path, name⟩, b! "B"⟩] else none

theorem exTwoElems_code {path name : GoString} {p : Ptr} {x : CodeElem} (hx : CodeIn (exTwoElems path name) (.func p) x) :
    x = .line (b! "%s()\n") (p + 1) ∧ (p = 1 ∨ p = 3) := by
  cases hx with
  | func h1 h2 =>
    simp only [exTwoElems] at h1
    split at h1
    · cases h1; rename_i hp; subst hp; simpa using h2
    · split at h1
      · cases h1; rename_i hp; subst hp; simpa using h2
      · cases h1

theorem exTwoElems_made {path name : GoString} {p : Ptr} {x : Place} (hm : MadeOf (exTwoElems path name) (.func p) x) :
    x = .func p ∨ x = .args (p + 1) := by
  cases hm with
  | func => exact .inl rfl
  | code h1 => obtain ⟨rfl, -⟩ := exTwoElems_code h1; exact .inr rfl

theorem exTwoElems_shows {path name : GoString} {p : Ptr} {x : Place} : ¬ Shows (exTwoElems path name) (.func p) x := by
  intro hs
  cases hs with
  | arg h1 h2 h3 h4 =>
    obtain ⟨h5, h6⟩ := exTwoElems_code h1
    cases h5
    rcases h6 with rfl | rfl <;> cases h2 <;> simp only [List.mem_singleton] at h3 <;> subst h3 <;> cases h4
  | data h1 => obtain ⟨h5, -⟩ := exTwoElems_code h1; cases h5

/-- The two functions have nothing in common. -/
theorem exTwoElems_apart (path name : GoString) : NothingInCommon (exTwoElems path name) [.func 1, .func 3] := by
  have one : ∀ a b : Ptr, a ≠ b → SharesNothing (exTwoElems path name) [.func a] [.func b] := by
    rintro a b hab x ⟨e, he, hm⟩ e' he'
    simp only [List.mem_singleton] at he he'
    subst he he'
    refine ⟨fun hm' => ?_, exTwoElems_shows⟩
    rcases exTwoElems_made hm with rfl | rfl <;> rcases exTwoElems_made hm' with h | h <;> cases h <;> exact hab rfl
  simp only [NothingInCommon, List.pairwise_cons, List.mem_singleton, List.not_mem_nil, false_implies, implies_true, List.Pairwise.nil, and_true,
    forall_eq]
  exact ⟨one 1 3 (by decide), one 3 1 (by decide)⟩

theorem exTwoElems_visited {path name : GoString} {f : GoFile} (hf : (exTwoElems path name).files 0 = some f) {pk : Package}
    (hv : NewlyVisited (exTwoElems path name) f pk) : pk = ⟨b! "x/q", b! "q"⟩ ∨ pk = ⟨path, name⟩ := by
  cases hf
  obtain ⟨⟨e, h1, h2⟩, -⟩ := hv
  simp only [List.mem_cons, List.not_mem_nil, or_false] at h1
  rcases h1 with rfl | rfl <;> cases h2 with
  | funcSig h1 h2 => cases h1; simp [Signature.symbols, symbolsArgs] at h2
  | funcCode h1 h2 h3 =>
    cases h1
    simp only [List.mem_singleton] at h2
    subst h2
    cases h3 with
    | line h4 h5 h6 =>
      cases h4
      simp only [List.mem_singleton] at h5
      subst h5
      cases h6 with
      | ref h7 h8 => cases h7; simp [Reference.packages] at h8; simp [h8]

/-- x/q and y/r can come in any order. -/
example {f : GoFile} (hf : (exTwoElems (b! "y/r") (b! "r")).files 0 = some f) :
    NoNameTwice (exTwoElems (b! "y/r") (b! "r")) f ∧ OnePackageEach (exTwoElems (b! "y/r") (b! "r")) f := by
  refine ⟨⟨fun a b ha hb => ?_, fun a ha y hy => ?_⟩, fun a b ha hb => ?_⟩
  · rcases exTwoElems_visited hf ha with rfl | rfl <;> rcases exTwoElems_visited hf hb with rfl | rfl <;> decide
  · cases hf
    simp [Imports.importedPaths, Imports.importSpecs, importSpecsInOrder, newImportsFor, sortSpecs] at hy
  · rcases exTwoElems_visited hf ha with rfl | rfl <;> rcases exTwoElems_visited hf hb with rfl | rfl <;> decide
example : (renderFile exEnv 3 0 (exTwoElems (b! "y/r") (b! "r"))).1 =
    .ok (b! "package p\n\nimport \"x/q\"\nimport \"y/r\"\n\nfunc F() {\nq.A()\n}\n\nfunc G() {\nr.B()\n}\n") := by decide
example : (renderFile exEnv 3 0 ((exTwoElems (b! "y/r") (b! "r")).withElements 0 [.func 3, .func 1])).1 =
    .ok (b! "package p\n\nimport \"x/q\"\nimport \"y/r\"\n\nfunc G() {\nr.B()\n}\n\nfunc F() {\nq.A()\n}\n") := by decide

/-- One of the functions alone has the same text. -/
example : (renderFile exEnv 3 0 ((exTwoElems (b! "y/r") (b! "r")).withElements 0 [.func 3])).1 =
    .ok (b! "package p\n\nimport \"y/r\"\n\nfunc G() {\nr.B()\n}\n") := by decide

/-- For x/q and y/q the order counts: the package that is mentioned first keeps its name. -/
example : (renderFile exEnv 3 0 (exTwoElems (b! "y/q") (b! "q"))).1 =
    .ok (b! "package p\n\nimport \"x/q\"\nimport q1 \"y/q\"\n\nfunc F() {\nq.A()\n}\n\nfunc G() {\nq1.B()\n}\n") := by decide
example : (renderFile exEnv 3 0 ((exTwoElems (b! "y/q") (b! "q")).withElements 0 [.func 3, .func 1])).1 =
    .ok (b! "package p\n\nimport q1 \"x/q\"\nimport \"y/q\"\n\nfunc G() {\nq.B()\n}\n\nfunc F() {\nq1.A()\n}\n") := by decide

/-- And so does what else is in the file. -/
example : (renderFile exEnv 3 0 ((exTwoElems (b! "y/q") (b! "q")).withElements 0 [.func 3])).1 =
    .ok (b! "package p\n\nimport \"y/q\"\n\nfunc G() {\nq.B()\n}\n") := by decide

end Gopoet
