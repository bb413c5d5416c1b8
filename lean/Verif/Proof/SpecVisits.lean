import Verif.Proof.TemplateVisits
/-! The specs in the templates that a qualification pass visits. -/

namespace Gopoet
open Imports

theorem NamedIn.unique {i : Imports} {p n m : GoString} (h : NamedIn i ⟨p, n⟩) (h' : NamedIn i ⟨p, m⟩) : n = m := by
  rcases h with ⟨h1, h2⟩ | ⟨h1, d, h2, h3⟩ <;> rcases h' with ⟨g1, g2⟩ | ⟨g1, e, g2, g3⟩ <;> dsimp only at *
  · rw [h2, g2]
  · exact absurd h1 g1
  · exact absurd g1 h1
  · rw [h2] at g2
    obtain rfl := Option.some.inj g2
    rw [← h3, ← g3]

/-- A spec is shown with the name that the imports use for its package; a copy may have the name that they
use for the package path "". -/
def SpecNamed (h : Heap) (i : Imports) : SpecRef × Option GoString → Prop
  | (r, none) => ∃ o, r.parent h = .ok o ∧ ∀ p, o = some p → ∃ f, h.files p = some f ∧ NamedIn i f.package
  | (r, some n) => NamedIn i ⟨[], n⟩ ∨
      ∃ p f, r.parent h = .ok (some p) ∧ h.files p = some f ∧ NamedIn i ⟨f.package.importPath, n⟩

theorem SpecNamed.later {h h' : Heap} {i j : Imports} (hs : SpecsStay h h') (he : Ext i j) {x}
    (hx : SpecNamed h i x) : SpecNamed h' j x := by
  obtain ⟨r, _ | n⟩ := x
  · obtain ⟨o, h1, h2⟩ := hx
    refine ⟨o, hs.parent _ _ h1, fun p hp => ?_⟩
    obtain ⟨f, h3, h4⟩ := h2 p hp
    obtain ⟨f', h5, e⟩ := hs.files p f h3
    exact ⟨f', h5, by rw [e]; exact he.named h4⟩
  · refine hx.imp he.named ?_
    rintro ⟨p, f, h1, h3, h4⟩
    obtain ⟨f', h5, e⟩ := hs.files p f h3
    exact ⟨p, f', hs.parent _ _ h1, h5, by rw [e]; exact he.named h4⟩

theorem SpecOut.named {h : Heap} {j : Imports} {l x} (hx : SpecOut h j l x) : SpecNamed h j x := by
  obtain ⟨r, _ | n⟩ := x
  · exact hx.2
  · exact hx.imp (·.2) fun ⟨_, p, f, h1, h2, h3, _⟩ => ⟨p, f, h1, h2, h3⟩

theorem leaves_true (h : Heap) : LeafKnown (fun _ _ => True) h := ⟨fun _ _ => trivial, fun _ _ _ _ => trivial⟩

theorem qualifyTemplateData_specs {h : Heap} {v v' : TVal} {i j : Imports}
    (hx : qualifyTemplateData h v i = (.ok v', j)) : ∀ x ∈ v'.shownSpecs, SpecOut h j v.shownSpecs x := by
  have := (qualifyTemplateData_out (leaves_true h) hx).2
  rwa [TVal.shownSpecs] at this

/-- The specs in the data of the template are named. -/
def TemplSpecs (h : Heap) (i : Imports) (q : Ptr) : Prop :=
  ∃ t, h.templs q = some t ∧ ∀ x ∈ t.data.shownSpecs, SpecNamed h i x

theorem TemplSpecs.visit {h i q t d j} (hq : h.templs q = some t)
    (hd : qualifyTemplateData h t.data i = (.ok d, j)) :
    TemplSpecs { h with templs := upd h.templs q { t with data := d } } j q :=
  ⟨_, upd_same .., fun x hx => (qualifyTemplateData_specs hd x hx).named.later (QStep.templ hq hd).specsStay (.refl _)⟩

theorem Later.templSpecs {h i h' i' q} (a : Later h i h' i') (hv : TemplSpecs h i q) : TemplSpecs h' i' q := by
  refine a.induct (P := fun h i => TemplSpecs h i q) (fun h i h' i' s hp => ?_) (fun h i files hf hp => ?_) hv
  · have hs := s.specsStay
    have he := s.ext
    obtain ⟨t, ht, hd⟩ := hp
    have hd' : ∀ x ∈ t.data.shownSpecs, SpecNamed h' i' x := fun x hx => (hd x hx).later hs he
    cases s with
    | @templ p ts' u _ hp hu =>
      by_cases hqp : q = p
      · subst hqp
        exact .visit hp hu
      · exact ⟨t, (upd_ne _ _ hqp).trans ht, hd'⟩
    | _ => exact ⟨t, ht, hd'⟩
  · obtain ⟨t, ht, hd⟩ := hp
    exact ⟨t, ht, fun x hx => (hd x hx).later (h := h) (h' := { h with files })
      ⟨fun _ _ hx => hx, files_samePackages hf⟩ (.refl _)⟩

theorem visits_specs : Visits (fun _ _ => True) TemplSpecs :=
  ⟨fun _ _ => trivial, fun l _ hv => l.templSpecs hv, fun _ hq hd => .visit hq hd⟩

/-! ### Copies -/

/-- The specs in the data of the templates `S` that are no copies are named. -/
def KeptNamed (S : Ptr → Prop) (h : Heap) (i : Imports) : Prop :=
  ∀ q t, S q → h.templs q = some t → ∀ r, (r, none) ∈ t.data.shownSpecs → SpecNamed h i (r, none)

/-- The copies in the data of the template, one of `S`, are named. -/
def TemplCopies (S : Ptr → Prop) (h : Heap) (i : Imports) (q : Ptr) : Prop :=
  S q → ∃ t, h.templs q = some t ∧ CopiesNamed i t.data.copyNames

theorem TemplCopies.visit {S h i q t d j} (hk : KeptNamed S h i) (hq : h.templs q = some t)
    (hd : qualifyTemplateData h t.data i = (.ok d, j)) :
    TemplCopies S { h with templs := upd h.templs q { t with data := d } } j q := by
  intro hS
  refine ⟨_, upd_same .., fun n hn => ?_⟩
  obtain ⟨r, hr⟩ := (mem_copyNames _).1 hn
  rcases qualifyTemplateData_specs hd _ hr with ⟨-, h1⟩ | ⟨h0, p, f, h1, h2, h3, h4⟩
  · exact h1
  · obtain ⟨o, g1, g2⟩ := hk q t hS hq r h0
    rw [g1] at h1
    obtain ⟨f', g3, g4⟩ := g2 p (by simpa using h1)
    rw [g3] at h2
    obtain rfl := Option.some.inj h2
    exact absurd (h3.unique ((QStep.templ hq hd).ext.named g4)) h4

theorem QStep.keptNamed {S h i h' i'} (s : QStep h i h' i') (hk : KeptNamed S h i) : KeptNamed S h' i' := by
  have hs := s.specsStay
  have he := s.ext
  cases s with
  | @templ p ts' u _ hp hu =>
    intro q t hS hq r hr
    by_cases hqp : q = p
    · subst hqp
      dsimp only at hq
      rw [upd_same] at hq
      obtain rfl := Option.some.inj hq
      exact (qualifyTemplateData_specs hu _ hr).named.later hs (.refl _)
    · exact (hk q t hS ((upd_ne _ _ hqp).symm.trans hq) r hr).later hs he
  | _ => exact fun q t hS hq r hr => (hk q t hS hq r hr).later hs he

theorem Later.keptNamed {S h i h' i'} (a : Later h i h' i') (hk : KeptNamed S h i) : KeptNamed S h' i' :=
  a.induct (P := KeptNamed S) (fun _ _ _ _ s hp => s.keptNamed hp)
    (fun h _ files hf hp q t hS hq r hr => (hp q t hS hq r hr).later (h := h) (h' := { h with files })
      ⟨fun _ _ hx => hx, files_samePackages hf⟩ (.refl _)) hk

theorem Later.templCopies {S h i h' i' q} (a : Later h i h' i') (hk : KeptNamed S h i)
    (hv : TemplCopies S h i q) : TemplCopies S h' i' q := by
  refine (a.induct (P := fun h i => KeptNamed S h i ∧ TemplCopies S h i q) (fun h i h' i' s hp => ?_)
    (fun h i files hf hp => ?_) ⟨hk, hv⟩).2
  · refine ⟨s.keptNamed hp.1, fun hS => ?_⟩
    obtain ⟨t, ht, hd⟩ := hp.2 hS
    have hd' : CopiesNamed i' t.data.copyNames := hd.ext s.ext
    cases s with
    | @templ p ts' u _ hp' hu =>
      by_cases hqp : q = p
      · subst hqp
        exact TemplCopies.visit hp.1 hp' hu hS
      · exact ⟨t, (upd_ne _ _ hqp).trans ht, hd'⟩
    | _ => exact ⟨t, ht, hd'⟩
  · exact ⟨(Later.file (.refl h i) hf).keptNamed hp.1, hp.2⟩

theorem visits_copies (S : Ptr → Prop) : Visits (KeptNamed S) (TemplCopies S) :=
  ⟨fun l => l.keptNamed, fun l hk hv => l.templCopies hk hv, fun hk hq hd => .visit hk hq hd⟩

end Gopoet
