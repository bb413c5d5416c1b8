import Verif.Proof.ProgramGiven
import Verif.Props.TemplateFile
/-! The code that a program gives to functions and initializers, when the file is written. -/

namespace Gopoet
open Imports

/-! ### Lines of code in elements of a file -/

theorem valueInit_of_skeleton {h0 h : Heap} (hs : h.skeleton = h0.skeleton) {p : Ptr} {c c0 : ValueSpec}
    (h1 : h.values p = some c) (h2 : h0.values p = some c0) : c.init = c0.init := by
  have h3 := congrFun (congrArg Heap.values hs) p
  simp only [Heap.skeleton, h1, h2, Option.map_some, Option.some.injEq] at h3
  exact congrArg (fun x => x.init) h3

theorem funcCode_of_skeleton {h0 h : Heap} (hs : h.skeleton = h0.skeleton) {p : Ptr} {c c0 : FuncSpec}
    (h1 : h.funcs p = some c) (h2 : h0.funcs p = some c0) : c.code = c0.code := by
  have h3 := congrFun (congrArg Heap.funcs hs) p
  simp only [Heap.skeleton, h1, h2, Option.map_some, Option.some.injEq] at h3
  exact congrArg (fun x => x.code) h3

theorem qualifyValue_init {fuel : Nat} {v : Ptr} {c : ValueSpec} {b : Ptr} {h i h' i'} (hc : h.values v = some c)
    (hi : c.init = some b) (hx : qualifyValue fuel v h i = (.ok (), h', i')) :
    ∃ h1 i1 cb, QSteps h i h1 i1 ∧ h1.blocks b = some cb ∧ qualifyCode cb h1 i1 = (.ok (), h', i') := by
  obtain ⟨c', g1, e1⟩ := QM.bind_read_eq_ok (m := (·.values)) hx
  rw [hc] at g1
  obtain rfl := Option.some.inj g1
  obtain ⟨t, g, j, g2, e1⟩ := QM.bind_eq_ok e1
  obtain ⟨_, g', j', g3, e1⟩ := QM.bind_eq_ok e1
  simp only [QM.modify, Prod.mk.injEq, true_and] at g3
  obtain ⟨rfl, rfl⟩ := g3
  rw [hi] at e1
  obtain ⟨cb, g4, e1⟩ := QM.bind_read_eq_ok (m := (·.blocks)) e1
  refine ⟨_, _, cb, ?_, g4, e1⟩
  rw [← hi]
  cases ht : c.type with
  | nil =>
    rw [ht] at g2
    have hself : { c with type := TypeRef.nil } = c := by rw [← ht]
    simp only [qualifyTypeRef, QM.ret, Prod.mk.injEq, Outcome.ok.injEq] at g2
    obtain ⟨rfl, rfl, rfl⟩ := g2
    rw [hself, upd_eq_self hc]
    exact .refl _ _
  | name t0 =>
    rw [ht] at g2
    simp only [qualifyTypeRef] at g2
    obtain ⟨t', i2, g5, g2⟩ := QM.bind_lift_eq_ok g2
    simp only [QM.ret, Prod.mk.injEq, Outcome.ok.injEq] at g2
    obtain ⟨rfl, rfl, rfl⟩ := g2
    exact (QStep.value hc ht g5).steps
  | spec q =>
    rw [ht] at g2
    simp only [qualifyTypeRef] at g2
    obtain ⟨_, h2, i2, g5, g2⟩ := QM.bind_eq_ok g2
    simp only [QM.ret, Prod.mk.injEq, Outcome.ok.injEq] at g2
    obtain ⟨rfl, rfl, rfl⟩ := g2
    have hs := steps_spec fuel q h i
    have hv := (specOnly_spec fuel q h i).values
    rw [g5] at hs hv
    have hself : { c with type := TypeRef.spec q } = c := by rw [← ht]
    have hc' : h2.values v = some c := by rw [← hc]; exact congrFun hv v
    rw [hself, upd_eq_self hc']
    exact hs

theorem value_line_done {tbl h0 q l fuel} (hl : ∀ a ∈ l, a.writable h0) {v : Ptr} {c0 : ValueSpec} {b : Ptr} {cb : CodeBlock}
    {fmt : GoString} (h1 : h0.values v = some c0) (h2 : c0.init = some b) (h3 : h0.blocks b = some cb) (h4 : .line fmt q ∈ cb)
    {h i h' i'} (hs : h.skeleton = h0.skeleton) (hk : LineOk tbl h0 q l h i)
    (hx : qualifyValue fuel v h i = (.ok (), h', i')) : LineDone tbl h0 q l h' i' := by
  obtain ⟨c, g1, -⟩ := QM.bind_read_eq_ok (m := (·.values)) hx
  obtain ⟨g, j, cb', k1, k2, k3⟩ := qualifyValue_init g1 ((valueInit_of_skeleton hs g1 h1).trans h2) hx
  have hb := congrFun (congrArg Heap.blocks (k1.skeleton.trans hs)) b
  simp only [Heap.skeleton] at hb
  rw [k2, h3] at hb
  obtain rfl := Option.some.inj hb
  exact line_done hl (hk.steps hl k1) h4 k3

theorem values_line_done {tbl h0 q l fuel} (hl : ∀ a ∈ l, a.writable h0) {v : Ptr} {c0 : ValueSpec} {b : Ptr} {cb : CodeBlock}
    {fmt : GoString} (h1 : h0.values v = some c0) (h2 : c0.init = some b) (h3 : h0.blocks b = some cb) (h4 : .line fmt q ∈ cb) :
    ∀ {vs : List Ptr} {h i h' i'}, v ∈ vs → h.skeleton = h0.skeleton → LineOk tbl h0 q l h i →
      QM.forEach (qualifyValue fuel) vs h i = (.ok (), h', i') → LineDone tbl h0 q l h' i'
  | [], _, _, _, _, hm, _, _, _ => by simp at hm
  | x :: vs, h, i, h', i', hm, hs, hk, hx => by
    obtain ⟨u, g, j, e1, e2⟩ := QM.bind_eq_ok hx
    have s1 := steps_value fuel x h i
    rw [e1] at s1
    rcases List.mem_cons.1 hm with rfl | hm
    · exact (value_line_done hl h1 h2 h3 h4 hs hk e1).later ((QM.Steps.forEach (steps_value fuel) vs).later e2)
    · exact values_line_done hl h1 h2 h3 h4 hm (s1.skeleton.trans hs) (hk.steps hl s1) e2

/-- The lines of code in an element are qualified with it. -/
theorem elem_line_done {tbl h0 q l fuel} (hl : ∀ a ∈ l, a.writable h0) {e : FileElem} (hq : HasLine h0 e q)
    {h i h' i'} (hs : h.skeleton = h0.skeleton) (hk : LineOk tbl h0 q l h i)
    (hx : e.qualify fuel h i = (.ok (), h', i')) : LineDone tbl h0 q l h' i' := by
  cases hq with
  | init h1 h2 h3 h4 h5 h6 =>
    obtain ⟨d, g1, hx⟩ := QM.bind_read_eq_ok (m := (·.valueDecls)) hx
    have hd := congrArg Heap.valueDecls hs
    simp only [Heap.skeleton] at hd
    rw [hd, h1] at g1
    obtain rfl := Option.some.inj g1
    exact values_line_done hl h3 h4 h5 h6 h2 hs hk hx
  | func h1 h2 =>
    obtain ⟨f1, g1, hx⟩ := QM.bind_read_eq_ok (m := (·.funcs)) hx
    obtain ⟨s, i2, g2, hx⟩ := QM.bind_lift_eq_ok hx
    obtain ⟨_, g, i3, g3, hx⟩ := QM.bind_eq_ok hx
    simp only [QM.modify, Prod.mk.injEq, true_and] at g3
    obtain ⟨rfl, rfl⟩ := g3
    have st : QStep h i { h with funcs := upd h.funcs _ { f1 with signature := s } } i2 := .func g1 g2
    exact line_done hl (hk.step hl st) (funcCode_of_skeleton hs g1 h1 ▸ h2) hx

/-- The lines of code in the elements of a file are qualified with it. -/
theorem elems_line_done {tbl h0 q l fuel} (hl : ∀ a ∈ l, a.writable h0) {e : FileElem} (hq : HasLine h0 e q) :
    ∀ {es : List FileElem} {h i h' i'}, e ∈ es → h.skeleton = h0.skeleton → LineOk tbl h0 q l h i →
      QM.forEach (FileElem.qualify fuel) es h i = (.ok (), h', i') → LineDone tbl h0 q l h' i'
  | [], _, _, _, _, hm, _, _, _ => by simp at hm
  | x :: es, h, i, h', i', hm, hs, hk, hx => by
    obtain ⟨u, g, j, e1, e2⟩ := QM.bind_eq_ok hx
    have s1 := steps_fileElem fuel x h i
    rw [e1] at s1
    rcases List.mem_cons.1 hm with rfl | hm
    · exact (elem_line_done hl hq hs hk e1).later ((steps_fileElems fuel es).later e2)
    · exact elems_line_done hl hq hm (s1.skeleton.trans hs) (hk.steps hl s1) e2

/-! ### The code of a program -/

/-- The code in a block that a program has made. -/
theorem block_code {cs : List BuildCall} {h : Heap} (hb : build cs {} = .ok h) {c : Option CodeCall} {g : Heap} {post : List BuildCall}
    (hm : Made cs (.newBlock c) g post) : ∃ l ks, h.blocks g.next = some l ∧ CodeOf h.args h.templs ks l ∧
      ks.map Prod.fst = (codeGiven cs).blocks g.next := by
  obtain ⟨g1, k1, k2, k3, k4, k5, k6⟩ := hm.exec hb
  have hl : ∃ l, g1.blocks g.next = some l := by
    cases c with
    | none => cases k1; exact ⟨_, upd_same ..⟩
    | some c =>
      obtain ⟨b, k1⟩ := built_ok k1
      obtain ⟨r, -, k1⟩ := bind_eq_ok k1
      cases k1
      exact ⟨_, upd_same ..⟩
  obtain ⟨l, hl⟩ := hl
  obtain ⟨l', h1, -⟩ := build_blocks k4 k2 hl
  obtain ⟨ks, h2, h3⟩ := (code_given hb).blocks _ _ h1
  exact ⟨_, ks, h1, h2, h3⟩

/-- The code in a block that `Initialize` has made. -/
theorem init_code {cs : List BuildCall} {h : Heap} (hb : build cs {} = .ok h) {q : Ptr} {format : GoString} {args : List Arg}
    {g : Heap} {post : List BuildCall} (hm : Made cs (.initWith q format args) g post) :
    ∃ l ks, h.blocks g.next = some l ∧ CodeOf h.args h.templs ks l ∧ ks.map Prod.fst = (codeGiven cs).blocks g.next := by
  obtain ⟨g1, k1, k2, k3, k4, k5, k6⟩ := hm.exec hb
  obtain ⟨⟨b, g0⟩, e1, k1⟩ := bind_eq_ok k1
  obtain ⟨m, e2, k1⟩ := bind_eq_ok k1
  cases k1
  obtain ⟨r, -, e1⟩ := bind_eq_ok e1
  cases e1
  obtain ⟨l', h1, -⟩ := build_blocks k4 k2 (p := g.next) (upd_same ..)
  obtain ⟨ks, h2, h3⟩ := (code_given hb).blocks _ _ h1
  exact ⟨_, ks, h1, h2, h3⟩

/-- The code in a function that a program has made. -/
theorem func_code {cs : List BuildCall} {h : Heap} (hb : build cs {} = .ok h) {r : Option ReceiverSpec} {n : GoString}
    {g : Heap} {post : List BuildCall} (hm : Made cs (.newFunc r n) g post) :
    ∃ f ks, h.funcs g.next = some f ∧ CodeOf h.args h.templs ks f.code ∧ ks.map Prod.fst = (codeGiven cs).funcs g.next := by
  obtain ⟨pre, rfl, hg⟩ := hm
  have hb' := hb
  rw [build_append, hg] at hb
  replace hb : build (.newFunc r n :: post) g = .ok h := hb
  obtain ⟨par, l, h1, -⟩ := newFunc_built Heap.fresh_empty hg hb
  obtain ⟨ks, h2, h3⟩ := (code_given hb').funcs _ _ h1
  exact ⟨_, ks, h1, h2, h3⟩

/-- The data of the templates in such code. -/
theorem CodeOf.templ_mem {A T ks l} (hc : CodeOf A T ks l) {env : Env} {K : KnownTemplates env} {h : Heap} {own : GoString}
    (hw : ∀ c ∈ ks.map Prod.fst, c.Clear K h own) {q : Ptr} (hq : .templ q ∈ l) :
    ∃ n v, T q = some ⟨n, v⟩ ∧ (CodeCall.renderCode n v).Clear K h own := by
  induction hc with
  | nil => cases hq
  | line h1 h2 _ ih =>
    cases hq with
    | tail _ hq => exact ih (fun c hc => hw c (.tail _ hc)) hq
  | templ h2 _ ih =>
    cases hq with
    | head => exact ⟨_, _, h2, hw _ (.head _)⟩
    | tail _ hq => exact ih (fun c hc => hw c (.tail _ hc)) hq
  | code => exact (hw _ (.head _)).elim

/-- The template in the data has the text that it should have, when the packages in the file have been qualified. -/
theorem clear_templ {env : Env} {K : KnownTemplates env} {fuel : Nat} {p : Ptr} {h h' : Heap} {f f' : GoFile} (hf : h.files p = some f)
    (hi : Reachable f.imports) (hr : qualifyFile fuel p h = (.ok (), h')) (hf' : h'.files p = some f') {own : GoString}
    (hown : f'.imports.pkgPath = own) (hne : [] ∉ f'.imports.importedPaths)
    {e : FileElem} (he : e ∈ f.elements) {q : Ptr} (ht : TemplateIn h e q) {n : Nat} {v : TVal}
    (hq : h.templs q = some ⟨n, v⟩) (hc : (CodeCall.renderCode n v).Clear K h own) :
    ∃ s, CodeElem.text env h' (.templ q) = .ok s ∧ CallWritten K h f'.imports (.renderCode n v) s := by
  obtain ⟨t, h1, h2, h3, h4, h5, h6⟩ := hc
  obtain ⟨k1, k2, k3⟩ := h6 f'.imports
  obtain ⟨s, hs⟩ := Option.ne_none_iff_exists'.1 k3
  obtain ⟨d, k4, k5⟩ := template_qualified (tbl := env.isPrint) hf hi hr hf' he ht hq h2 h3 h4 (h5.imp id fun h => ⟨hne, hown ▸ h⟩) k1
  refine ⟨s, ?_, .templ h1 hs⟩
  rw [CodeElem.text]
  simp only [deref, k4]
  simp [K.exec n t h1, k5 _ _ _ _ hs k2]

/-- The text of code in an element of a file, after the file is written. -/
theorem calls_text {env : Env} {fuel : Nat} {p : Ptr} {h h' : Heap} {f f' : GoFile} {text : GoString} (hf : h.files p = some f)
    (hi : Reachable f.imports) (hr : renderFile env fuel p h = (.ok text, h')) (hf' : h'.files p = some f') {K : KnownTemplates env}
    {own : GoString} (hown : f'.imports.pkgPath = own) (hne : [] ∉ f'.imports.importedPaths)
    {e : FileElem} (he : e ∈ f.elements) {ks : List (CodeCall × Heap)} {l : CodeBlock} (hc : CodeOf h.args h.templs ks l)
    (hl : ∀ fmt q, .line fmt q ∈ l → HasLine h e q) (ht : ∀ q, .templ q ∈ l → TemplateIn h e q)
    (hw : ∀ c ∈ ks.map Prod.fst, c.Clear K h own) :
    ∃ texts, codeText env h' l = .ok texts.flatten ∧
      List.Forall₂ (CallWritten K h f'.imports) (ks.map Prod.fst) texts := by
  have hx := hf'
  obtain ⟨file, i', e5, e6, e7, _⟩ := renderFile_ok hr
  rw [hf] at e5; cases e5
  have ei : f'.imports = i' := by
    rw [e7, upd_same] at hf'
    rw [← Option.some.inj hf']
  rw [ei]
  have one : ∀ x l', codeText env h' (x :: l') = (CodeElem.text env h' x).bind fun s => (codeText env h' l').bind fun t => .ok (s ++ t) :=
    fun x l' => rfl
  rw [← ei]
  induction hc with
  | nil => exact ⟨[], rfl, .nil⟩
  | @line c g format args q cs l h1 h2 h3 ih =>
    obtain ⟨texts, k1, k2⟩ := ih (fun fmt q hq => hl fmt q (.tail _ hq)) (fun q hq => ht q (.tail _ hq))
      (fun c hc => hw c (.tail _ hc))
    have hwc : c.writable env.isPrint h := by
      have := hw c (.head _)
      cases c <;> first | exact this | cases h1
    have hc1 : CodeOf h.args h.templs [(c, g)] [.line format q] := .line h1 h2 .nil
    obtain ⟨ts, k3, k4⟩ := hc1.written (env := env) (h0 := h) (H := h') (i := i') (by simpa using hwc) (fun _ _ h => h) (fun fmt q' args k1 k2 k3 => by
        have hm : .line fmt q' ∈ CodeElem.line format q :: l := by
          obtain ⟨rfl, rfl⟩ := CodeElem.line.inj (List.mem_singleton.1 k1)
          exact .head _
        obtain ⟨l', shs, m1, _, m3, m4⟩ := elems_line_done (tbl := env.isPrint) k2 (hl fmt q' hm) he rfl
          ⟨hi.inv, fun _ _ h => h, .inl k3⟩ e6
        exact ⟨l', shs, m1, m3, m4 _ (Ext.refl _)⟩)
    obtain ⟨s, b, k5, k6, rfl⟩ := List.forall₂_cons_left_iff.1 k4
    obtain rfl := List.forall₂_nil_left_iff.1 k6
    rw [one] at k3
    obtain ⟨s', k7, k3⟩ := bind_eq_ok k3
    obtain ⟨s'', k8, k3⟩ := bind_eq_ok k3
    cases k8
    rw [one, k7, k1]
    have : s' = s := by simpa using Outcome.ok.inj k3
    subst this
    exact ⟨s' :: texts, rfl, .cons (.line (ei ▸ k5)) k2⟩
  | @templ n v g q cs l h2 h3 ih =>
    obtain ⟨texts, k1, k2⟩ := ih (fun fmt q hq => hl fmt q (.tail _ hq)) (fun q hq => ht q (.tail _ hq))
      (fun c hc => hw c (.tail _ hc))
    obtain ⟨s, k3, k4⟩ := clear_templ hf hi (qualifyFile_of_renderFile hr) hx hown hne he (ht q (.head _)) h2 (hw _ (.head _))
    rw [one, k3, k1]
    exact ⟨s :: texts, rfl, .cons k4 k2⟩
  | code => exact (hw _ (.head _)).elim

end Gopoet
