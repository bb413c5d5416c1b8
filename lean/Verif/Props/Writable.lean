import Verif.Proof.WritableText
import Verif.Props.Output
import Verif.Props.FileNames

/-! # C68: which files can be written

`WriteGoFile` (model.go:196-216) gets to the formatter exactly if the file is made of usable parts. The conditions are in
`Verif.Spec.Writable`: nothing is nil, arguments of lines stand for something (specs were added to a file), no spec
contains itself, no declaration is empty, a field with the spec of a declared type refers to one that was added to a
file. Templates must execute. The bound on the depth of specs in the model does not matter. -/

namespace Gopoet
open Imports

/-- C68: what is written does not depend on the bound on the depth, if it is high enough for anything to be written. -/
theorem C68_bound_irrelevant {env : Env} {n m : Nat} {p : Ptr} {h h1 h2 : Heap} {t1 t2 : GoString}
    (r1 : renderFile env n p h = (.ok t1, h1)) (r2 : renderFile env m p h = (.ok t2, h2)) : t1 = t2 ∧ h1 = h2 := by
  have a := renderFile_mono (Nat.le_max_left n m) r1
  rw [renderFile_mono (Nat.le_max_right n m) r2] at a
  obtain ⟨a1, a2⟩ := Prod.mk.inj a
  exact ⟨(Outcome.ok.inj a1).symm, a2.symm⟩

/-- C68: nor does it matter how much higher it is. -/
theorem C68_bound_higher {env : Env} {n m : Nat} (hnm : n ≤ m) {p : Ptr} {h h' : Heap} {text : GoString}
    (hr : renderFile env n p h = (.ok text, h')) : renderFile env m p h = (.ok text, h') := renderFile_mono hnm hr

/-- C68: the elements of a file can be qualified exactly if all of them are usable. -/
theorem C68_qualified {h : Heap} {p : Ptr} {f : GoFile} (hf : h.files p = some f) (hs : h.Sound) :
    (∃ n h', qualifyFile n p h = (.ok (), h')) ↔ ∀ e ∈ f.elements, e.Usable h := by
  constructor
  · rintro ⟨n, h', hq⟩ e he
    exact usable_iff.2 ⟨n, (qualifyFile_frame hf hs hq).2.2.2 e he⟩
  · intro hu
    obtain ⟨n, hn⟩ := usable_bound hu
    exact ⟨n, qualifyFile_done hf hs hn⟩

/-- C68: `WriteGoFile` gets to the formatter exactly if all elements are usable and can be written, and the templates
execute with the data that qualification leaves. -/
theorem C68_written {env : Env} {h : Heap} {p : Ptr} {f : GoFile} (hf : h.files p = some f) (hs : h.Sound) :
    (∃ n text h', renderFile env n p h = (.ok text, h')) ↔
      (∀ e ∈ f.elements, e.Usable h ∧ e.Writable h) ∧
      ∀ n h', qualifyFile n p h = (.ok (), h') → ∀ e ∈ f.elements, e.Executes env h' := by
  have key : ∀ {n h'}, qualifyFile n p h = (.ok (), h') →
      (YieldsText ((deref h'.files p).bind fun f => f.text env h' n) ↔ ∀ e ∈ f.elements, e.Writable h ∧ e.Executes env h') := by
    intro n h' hq
    obtain ⟨h1, h2, ⟨i, h3⟩, h4⟩ := qualifyFile_frame hf hs hq
    have h5 := yields_file (env := env) h2 (f := { f with imports := i }) (n := n) fun e he => (h1.usableIn n e).2 (h4 e he)
    simp only [h1.writable] at h5
    rw [← h5, deref_some h3]
    rfl
  constructor
  · rintro ⟨n, text, h', hr⟩
    have hr0 := hr
    unfold renderFile at hr
    obtain ⟨o, h1, hq⟩ : ∃ o h1, qualifyFile n p h = (o, h1) := ⟨_, _, rfl⟩
    rw [hq] at hr
    cases o with
    | panic => cases hr
    | hang => cases hr
    | ok u =>
      obtain ⟨ht, rfl⟩ := Prod.mk.inj hr
      have h2 := (key hq).1 ⟨text, ht⟩
      refine ⟨fun e he => ⟨(C68_qualified hf hs).1 ⟨n, h1, hq⟩ e he, (h2 e he).1⟩, fun m h3 hq3 e he => ?_⟩
      have a := qualifyFile_mono (Nat.le_max_left n m) hq
      rw [qualifyFile_mono (Nat.le_max_right n m) hq3] at a
      rw [(Prod.mk.inj a).2]
      exact (h2 e he).2
  · rintro ⟨h1, h2⟩
    obtain ⟨n, h', hq⟩ := (C68_qualified hf hs).2 fun e he => (h1 e he).1
    obtain ⟨text, ht⟩ := (key hq).2 fun e he => ⟨(h1 e he).2, h2 n h' hq e he⟩
    refine ⟨n, text, h', ?_⟩
    rw [renderFile, hq]
    exact Prod.ext ht rfl

/-- C68: a file whose templates execute can be written exactly if all elements are usable and can be written. -/
theorem C68_written_executes {env : Env} {h : Heap} {p : Ptr} {f : GoFile} (hf : h.files p = some f) (hs : h.Sound)
    (hx : ∀ n h', qualifyFile n p h = (.ok (), h') → ∀ e ∈ f.elements, e.Executes env h') :
    (∃ n text h', renderFile env n p h = (.ok text, h')) ↔ ∀ e ∈ f.elements, e.Usable h ∧ e.Writable h := by
  rw [C68_written hf hs]
  exact and_iff_left hx

/-- C68: a file without templates can be written exactly if all elements are usable and can be written. -/
theorem C68_written_lines {env : Env} {h : Heap} {p : Ptr} {f : GoFile} (hf : h.files p = some f) (hs : h.Sound)
    (ht : ∀ e ∈ f.elements, ∀ q, ¬ TemplateIn h e q) :
    (∃ n text h', renderFile env n p h = (.ok text, h')) ↔ ∀ e ∈ f.elements, e.Usable h ∧ e.Writable h := by
  rw [C68_written hf hs, and_iff_left_iff_imp]
  intro _ n h' hq e he q t hin
  exact absurd ((qualifyFile_frame hf hs hq).1.symm.templateIn hin) (ht e he q)

/-- C68: whether a file can be written stays as it is: what can be written once can be written again. -/
theorem C68_again {h h' : Heap} {p : Ptr} {f : GoFile} (hf : h.files p = some f) (hs : h.Sound) {n : Nat}
    (hq : qualifyFile n p h = (.ok (), h')) :
    (∀ e ∈ f.elements, e.Usable h' ∧ e.Writable h') ↔ ∀ e ∈ f.elements, e.Usable h ∧ e.Writable h := by
  have h1 := (qualifyFile_frame hf hs hq).1
  refine forall₂_congr fun e _ => ?_
  simp only [usable_iff, h1.usableIn, h1.writable]

/-! ### Files that are meant to be something -/

theorem elemsMean_there {sc : FileScope} {h : Heap} {es : List IfaceElem} {l} (hm : ElemsMean sc h es l) :
    ∀ e ∈ es, e.There h := by
  induction hm with
  | nil => simp
  | cons h1 _ ih =>
    rw [List.forall_mem_cons]
    refine ⟨?_, ih⟩
    cases h1 with
    | embed h2 => exact ⟨_, h2⟩
    | method h2 => exact ⟨_, h2⟩

mutual
theorem bodyMeans_ends {sc : FileScope} {h : Heap} (hb : h.PlainBodies) {ts : TypeSpec} {t} :
    BodyMeans sc h ts t → ∀ p, h.types p = some ts → SpecEnds h p ∧ BodyRefers h p
  | .struct h1 h2 h3 => by
    intro p hp
    have h4 := fieldsMean_ends hb h3
    have h5 : ts.interfaceBody = [] := by
      by_contra hne
      obtain ⟨ms, es, h6⟩ := (hb p ts hp).2 hne
      rw [h1] at h6
      cases h6
    refine ⟨.intro hp (fun q hq => (h4 q hq).1) (fun q hq f r hf hr => ?_) (by simp [h5]), .intro hp ?_ ?_⟩
    · obtain ⟨s, -, -, h6, -⟩ := (h4 q hq).2 f r hf hr
      exact h6
    · intro fs _ q hq f r s hf hr hs hn
      obtain ⟨s, -, -, -, h6⟩ := (h4 q hq).2 f r hf hr
      exact h6
    · intro fs _ q hq f r s hf hr hs hn
      obtain ⟨s', h6, h7, -⟩ := (h4 q hq).2 f r hf hr
      rw [hs] at h6
      cases h6
      exact absurd h7 hn
  | .iface h1 h2 h3 => by
    intro p hp
    have h5 : ts.structBody = [] := by
      by_contra hne
      obtain ⟨fs, h6⟩ := (hb p ts hp).1 hne
      rw [h1] at h6
      cases h6
    exact ⟨.intro hp (by simp [h5]) (by simp [h5]) (elemsMean_there h3), .intro hp (by simp [h5]) (by simp [h5])⟩
  | .other h1 _ _ => by
    intro p hp
    have h5 : ts.structBody = [] := by
      by_contra hne
      obtain ⟨fs, h6⟩ := (hb p ts hp).1 hne
      rw [h6] at h1
      cases h1
    have h6 : ts.interfaceBody = [] := by
      by_contra hne
      obtain ⟨ms, es, h6⟩ := (hb p ts hp).2 hne
      rw [h6] at h1
      cases h1
    exact ⟨.intro hp (by simp [h5]) (by simp [h5]) (by simp [h6]), .intro hp (by simp [h5]) (by simp [h5])⟩
theorem fieldsMean_ends {sc : FileScope} {h : Heap} (hb : h.PlainBodies) {ps : List Ptr} {l} :
    FieldsMean sc h ps l → ∀ q ∈ ps, (∃ f, h.fields q = some f) ∧
      ∀ f r, h.fields q = some f → f.type = .spec r → ∃ s, h.types r = some s ∧ s.name = [] ∧ SpecEnds h r ∧ BodyRefers h r
  | .nil => by simp
  | .cons h1 h2 h3 => by
    rw [List.forall_mem_cons]
    refine ⟨⟨⟨_, h1⟩, fun f r hf hr => ?_⟩, fieldsMean_ends hb h3⟩
    rw [h1] at hf
    cases hf
    exact fieldMeans_ends hb h2 hr
theorem fieldMeans_ends {sc : FileScope} {h : Heap} (hb : h.PlainBodies) {f : FieldSpec} {g} {r : Ptr} :
    FieldMeans sc h f g → f.type = .spec r → ∃ s, h.types r = some s ∧ s.name = [] ∧ SpecEnds h r ∧ BodyRefers h r
  | .line h1 _ _ _ _ => by intro hr; rw [h1] at hr; cases hr
  | .block h1 _ _ _ _ _ _ _ => by intro hr; rw [h1] at hr; cases hr
  | .unnamed h1 h2 h3 h4 _ _ => by
    intro hr
    rw [h1] at hr
    cases hr
    exact ⟨_, h2, h3, bodyMeans_ends hb h4 _ h2⟩
end

theorem forall₂_left {α β : Type} {R : α → β → Prop} {P : α → Prop} (hp : ∀ a b, R a b → P a) {l : List α} {m : List β}
    (h : List.Forall₂ R l m) : ∀ a ∈ l, P a := by
  induction h with
  | nil => simp
  | cons h1 _ ih => exact List.forall_mem_cons.2 ⟨hp _ _ h1, ih⟩

/-- C68: an element that is meant to declare something (C56) needs nothing but code with arguments that refer to
something. -/
theorem C68_intended {sc : FileScope} {h : Heap} (hb : h.PlainBodies) {e : FileElem} {M : DeclMeaning} (hm : Intends sc h e M) :
    (e.Usable h ∧ e.Writable h) ↔ e.CodeUsable h := by
  cases hm with
  | types h1 h2 h3 =>
    have h4 := forall₂_left (P := fun q => SpecEnds h q ∧ BodyRefers h q)
      (fun q t ⟨ts, t', hq, _, hbm, _⟩ => bodyMeans_ends hb hbm _ hq) h3
    exact ⟨fun _ => trivial, fun _ => ⟨⟨_, h1, fun q hq => (h4 q hq).1⟩, _, h1, h2, fun q hq => (h4 q hq).2⟩⟩
  | values h1 h2 h3 =>
    have h4 := forall₂_left (P := fun q => ∃ c, h.values q = some c ∧ c.type.Ends h)
      (fun q t ⟨c, t', hq, _, _, ht, _⟩ => ⟨c, hq, by generalize c.type = ty at ht; cases ht <;> trivial⟩) h3
    constructor
    · rintro ⟨⟨d, hd, hv⟩, -⟩ d' hd' q hq c hc b hcb
      rw [hd] at hd'
      cases hd'
      obtain ⟨c', hc', -, h5⟩ := hv q hq
      rw [hc] at hc'
      cases hc'
      exact h5 b hcb
    · intro hc
      refine ⟨⟨_, h1, fun q hq => ?_⟩, _, h1, h2⟩
      obtain ⟨c, h5, h6⟩ := h4 q hq
      exact ⟨c, h5, h6, hc _ h1 q hq c h5⟩
  | func h1 =>
    constructor
    · rintro ⟨⟨f, hf, hc⟩, -⟩ f' hf'
      rw [hf] at hf'
      cases hf'
      exact hc
    · exact fun hc => ⟨⟨_, h1, hc _ h1⟩, trivial⟩

/-- C68: a file that is meant to declare something, and has no templates, can be written exactly if the arguments in its
code refer to something. What is written then means what was intended, by C56 and C67. -/
theorem C68_intended_executes {env : Env} {sc : FileScope} {h : Heap} {p : Ptr} {f : GoFile} {Ms : List DeclMeaning}
    (hf : h.files p = some f) (hs : h.Sound) (hb : h.PlainBodies) (hm : List.Forall₂ (Intends sc h) f.elements Ms)
    (hx : ∀ n h', qualifyFile n p h = (.ok (), h') → ∀ e ∈ f.elements, e.Executes env h') :
    (∃ n text h', renderFile env n p h = (.ok text, h')) ↔ ∀ e ∈ f.elements, e.CodeUsable h := by
  rw [C68_written_executes hf hs hx]
  exact forall₂_congr (forall₂_left (P := fun e => (e.Usable h ∧ e.Writable h) ↔ e.CodeUsable h) (fun e M => C68_intended hb) hm)

/-- C68: the same, if there are no templates. -/
theorem C68_intended_file {env : Env} {sc : FileScope} {h : Heap} {p : Ptr} {f : GoFile} {Ms : List DeclMeaning}
    (hf : h.files p = some f) (hs : h.Sound) (hb : h.PlainBodies) (hm : List.Forall₂ (Intends sc h) f.elements Ms)
    (ht : ∀ e ∈ f.elements, ∀ q, ¬ TemplateIn h e q) :
    (∃ n text h', renderFile env n p h = (.ok text, h')) ↔ ∀ e ∈ f.elements, e.CodeUsable h := by
  rw [C68_written_lines hf hs ht]
  have h1 := forall₂_left (P := fun e => (e.Usable h ∧ e.Writable h) ↔ e.CodeUsable h) (fun e M => C68_intended hb) hm
  exact forall₂_congr h1

/-! ## Examples -/

/-- Two struct types, of which the first has a field with the spec `r` as type, and a function whose code mentions the
first. The spec 4 belongs to a file if `inFile`. -/
def exNodes (r : Ptr) (inFile : Bool) : Heap where
  files p := if p = 0 then some { name := b! "p.go", packageName := b! "p", imports := newImportsFor (b! "x/p")
                                  elements := [.types 1, .func 2] } else none
  typeDecls p := if p = 1 then some { types := [3] } else none
  types p := if p = 3 then some { name := b! "Node", underlying := .struct [], structBody := [5], parent := some 0 }
    else if p = 4 then some { name := b! "Leaf", underlying := .struct [], parent := if inFile then some 0 else none }
    else none
  fields p := if p = 5 then some { name := b! "leaf", type := .spec r } else none
  funcs p := if p = 2 then some { name := b! "F", code := [.line (b! "_ = %s{}\n") 6], parent := some 0 } else none
  args p := if p = 6 then some [.typeSpec 3] else none

theorem exNodes_sound (r : Ptr) (b : Bool) : (exNodes r b).Sound where
  types p t ht := by
    simp only [exNodes] at ht
    split at ht
    · cases ht; rfl
    · split at ht
      · cases ht; rfl
      · cases ht
  fields p f t hf ht := by
    simp only [exNodes] at hf
    split at hf
    · cases hf; cases ht
    · cases hf
  values p c t hc := by cases hc
  methods p m hm := by cases hm
  funcs p f hf := by
    simp only [exNodes] at hf
    split at hf
    · cases hf; rfl
    · cases hf
  args p l hl a ha := by
    simp only [exNodes] at hl
    split at hl
    · cases hl
      obtain rfl := List.mem_singleton.1 ha
      trivial
    · cases hl
  templs p t ht := by cases ht

theorem exNodes_templates (r : Ptr) (b : Bool) (e : FileElem) (q : Ptr) : ¬ TemplateIn (exNodes r b) e q := by
  intro hin
  cases hin with
  | init h1 => cases h1
  | func h1 h2 =>
    simp only [exNodes] at h1
    split at h1
    · cases h1; cases h2; rename_i h3; cases h3
    · cases h1

/-- It is written if the spec of the field belongs to a file (with the package name, see C30). -/
theorem exNodes_written : (renderFile exEnv 2 0 (exNodes 4 true)).1 =
    .ok (b! "package p\n\n\ntype Node  struct {\nleaf p.Leaf\n}\n\nfunc F() {\n_ = Node{}\n}\n") := by decide +kernel

/-- by `C68_written_lines`: the elements are usable -/
example : ∀ e ∈ [FileElem.types 1, .func 2], e.Usable (exNodes 4 true) ∧ e.Writable (exNodes 4 true) := by
  refine (C68_written_lines (env := exEnv) (p := 0) rfl (exNodes_sound 4 true) fun e _ q => exNodes_templates 4 true e q).1
    (Exists.intro 2 (Exists.intro _ ⟨(renderFile exEnv 2 0 (exNodes 4 true)).2, Prod.ext exNodes_written rfl⟩))

/-- by `C68_written_lines`: it is not written if the spec does not belong to a file … -/
theorem exNodes_not_written : ¬ ∃ n text h', renderFile exEnv n 0 (exNodes 4 false) = (.ok text, h') := by
  rw [C68_written_lines rfl (exNodes_sound 4 false) fun e _ q => exNodes_templates 4 false e q]
  intro hall
  obtain ⟨d, hd, -, h1⟩ := (hall (.types 1) (by simp)).2
  cases hd
  have := (bodyRefers_iff (h := exNodes 4 false) (p := 3) rfl).1 (h1 3 (by simp)) [] rfl 5 (by simp) _ 4 _ rfl rfl rfl
  obtain ⟨f, file, h2, -⟩ := this.2 (by decide)
  cases h2

/-- … nor if the type contains its own spec: `qualify` (model.go:1128-1141) recurses without end. -/
theorem exNodes_recursive : ¬ ∃ n text h', renderFile exEnv n 0 (exNodes 3 true) = (.ok text, h') := by
  rw [C68_written_lines rfl (exNodes_sound 3 true) fun e _ q => exNodes_templates 3 true e q]
  intro hall
  obtain ⟨d, hd, h1⟩ := (hall (.types 1) (by simp)).1
  cases hd
  have hno : ∀ p, SpecEnds (exNodes 3 true) p → p ≠ 3 := by
    intro p hp
    induction hp with
    | intro ht hp1 hp2 hp3 ih =>
      rintro rfl
      cases ht
      exact ih 5 (by simp) _ 3 rfl rfl rfl
  exact hno 3 (h1 3 (by simp)) rfl

/-- The file of C56's example: variables and a struct type, with fields. -/
theorem exTwoQ_sound : exTwoQ.Sound where
  types p t ht := by
    simp only [exTwoQ] at ht
    split at ht
    · cases ht; rfl
    · cases ht
  fields p f t hf ht := by
    simp only [exTwoQ] at hf
    split at hf
    · cases hf; cases ht; rfl
    · cases hf
  values p c t hc ht := by
    simp only [exTwoQ] at hc
    split at hc
    · cases hc; cases ht; rfl
    · split at hc
      · cases hc; cases ht; rfl
      · cases hc
  methods p m hm := by cases hm
  funcs p f hf := by cases hf
  args p l hl := by cases hl
  templs p t ht := by cases ht

theorem exTwoQ_plain : exTwoQ.PlainBodies := by
  intro p t ht
  simp only [exTwoQ] at ht
  split at ht
  · cases ht
    exact ⟨fun _ => ⟨_, rfl⟩, fun h => absurd rfl h⟩
  · cases ht

/-- by `C68_intended_file`, with any formatting of code -/
example (env : Env) : ∃ n text h', renderFile env n 0 exTwoQ = (.ok text, h') := by
  refine (C68_intended_file (f := exTwoQ_file) rfl exTwoQ_sound exTwoQ_plain exTwoQ_intends fun e _ q hin => ?_).2 fun e he => ?_
  · cases hin with
    | init h1 h2 h3 h4 h5 => cases h5
    | func h1 => cases h1
  · have : e = .values 1 ∨ e = .types 2 := by simpa [exTwoQ_file] using he
    rcases this with rfl | rfl
    · intro d hd q hq c hc b hb
      simp only [exTwoQ] at hc
      split at hc
      · cases hc; cases hb
      · split at hc
        · cases hc; cases hb
        · cases hc
    · trivial

end Gopoet
