import Verif.Spec.Decls
import Verif.Proof.HeapLemmas
import Verif.Proof.GoTypesLemmas
import Verif.Proof.QuoteLemmas
import Verif.Props.Output
/-!
# Declarations and files: C28, C29, C39-C41, C45
-/

namespace Gopoet
open Imports

/-! ## C28 -/

/-- What does not change when a spec is qualified. -/
def ValueSpec.core (c : ValueSpec) : List GoString × Option Ptr := (c.names, c.parent)
def TypeSpec.core (t : TypeSpec) : GoString × Option Ptr := (t.name, t.parent)
def FuncSpec.core (f : FuncSpec) : GoString × Option ReceiverSpec × Option Ptr :=
  (f.name, f.receiver, f.parent)

theorem setParents_ok {α} {set : α → α} (hset : ∀ a, set (set a) = set a) :
    ∀ {ps : List Ptr} {m m' : Ptr → Option α}, setParents set m ps = .ok m' →
    (∀ q, q ∈ ps → ∃ a, m q = some a ∧ m' q = some (set a)) ∧ ∀ q, q ∉ ps → m' q = m q := by
  intro ps
  induction ps with
  | nil =>
    intro m m' h
    simp only [setParents, Outcome.ok.injEq] at h
    subst h
    exact ⟨by simp, fun _ _ => rfl⟩
  | cons p ps ih =>
    intro m m' h
    rw [setParents] at h
    cases hp : m p with
    | none => rw [hp] at h; simp at h
    | some a =>
      rw [hp] at h
      obtain ⟨h1, h2⟩ := ih h
      refine ⟨fun q hq => ?_, fun q hq => ?_⟩
      · by_cases hqp : q = p
        · subst hqp
          refine ⟨a, hp, ?_⟩
          by_cases hin : q ∈ ps
          · obtain ⟨b, hb, hb'⟩ := h1 q hin
            rw [upd_same] at hb
            cases hb
            rw [hb', hset]
          · rw [h2 q hin, upd_same]
        · rcases List.mem_cons.mp hq with rfl | hq
          · exact absurd rfl hqp
          · obtain ⟨b, hb, hb'⟩ := h1 q hq
            rw [upd_ne _ _ hqp] at hb
            exact ⟨b, hb, hb'⟩
      · rw [List.mem_cons, not_or] at hq
        rw [h2 q hq.2, upd_ne _ _ hq.1]

/-- What an operation does to specs and files. -/
structure AddEffect (op : AddOp) (h h' : Heap) : Prop where
  value : ∀ p f, op.Adds h (.value p) f → ∃ c c', h.values p = some c ∧ h'.values p = some c' ∧
    c'.names = c.names ∧ c'.parent = some f ∧ h.files f ≠ none
  valueKept : ∀ p, (∀ f, ¬ op.Adds h (.value p) f) →
    (h'.values p).map ValueSpec.core = (h.values p).map ValueSpec.core
  type : ∀ p f, op.Adds h (.type p) f → ∃ c c', h.types p = some c ∧ h'.types p = some c' ∧
    c'.name = c.name ∧ c'.parent = some f ∧ h.files f ≠ none
  typeKept : ∀ p, (∀ f, ¬ op.Adds h (.type p) f) →
    (h'.types p).map TypeSpec.core = (h.types p).map TypeSpec.core
  func : ∀ p f, op.Adds h (.func p) f → ∃ c c', h.funcs p = some c ∧ h'.funcs p = some c' ∧
    c'.name = c.name ∧ c'.receiver = c.receiver ∧ c'.parent = some f ∧ h.files f ≠ none
  funcKept : ∀ p, (∀ f, ¬ op.Adds h (.func p) f) →
    (h'.funcs p).map FuncSpec.core = (h.funcs p).map FuncSpec.core
  files : ∀ q, (h'.files q).map GoFile.package = (h.files q).map GoFile.package

theorem QStep.cores {h i h' i'} (a : QStep h i h' i') :
    (∀ p, (h'.values p).map ValueSpec.core = (h.values p).map ValueSpec.core) ∧
    (∀ p, (h'.types p).map TypeSpec.core = (h.types p).map TypeSpec.core) ∧
    ∀ p, (h'.funcs p).map FuncSpec.core = (h.funcs p).map FuncSpec.core := by
  cases a with
  | imports => exact ⟨fun _ => rfl, fun _ => rfl, fun _ => rfl⟩
  | type hp =>
    rename_i q ts u _
    refine ⟨fun _ => rfl, fun p => ?_, fun _ => rfl⟩
    by_cases hpq : p = q
    · subst hpq; simp [hp, TypeSpec.core]
    · simp only [upd_ne _ _ hpq]
  | value hp =>
    rename_i q c t t' _ _
    refine ⟨fun p => ?_, fun _ => rfl, fun _ => rfl⟩
    by_cases hpq : p = q
    · subst hpq; simp [hp, ValueSpec.core]
    · simp only [upd_ne _ _ hpq]
  | func hp =>
    rename_i q f s _
    refine ⟨fun _ => rfl, fun _ => rfl, fun p => ?_⟩
    by_cases hpq : p = q
    · subst hpq; simp [hp, FuncSpec.core]
    · simp only [upd_ne _ _ hpq]
  | field | embed | method | args | templ => exact ⟨fun _ => rfl, fun _ => rfl, fun _ => rfl⟩

theorem QSteps.cores {h i h' i'} (a : QSteps h i h' i') :
    (∀ p, (h'.values p).map ValueSpec.core = (h.values p).map ValueSpec.core) ∧
    (∀ p, (h'.types p).map TypeSpec.core = (h.types p).map TypeSpec.core) ∧
    ∀ p, (h'.funcs p).map FuncSpec.core = (h.funcs p).map FuncSpec.core := by
  induction a with
  | refl => exact ⟨fun _ => rfl, fun _ => rfl, fun _ => rfl⟩
  | step _ s ih =>
    obtain ⟨h1, h2, h3⟩ := s.cores
    exact ⟨fun p => (h1 p).trans (ih.1 p), fun p => (h2 p).trans (ih.2.1 p),
      fun p => (h3 p).trans (ih.2.2 p)⟩

theorem qualifyFile_cores (fuel : Nat) (f : Ptr) (h : Heap) :
    (∀ p, ((qualifyFile fuel f h).2.values p).map ValueSpec.core = (h.values p).map ValueSpec.core) ∧
    (∀ p, ((qualifyFile fuel f h).2.types p).map TypeSpec.core = (h.types p).map TypeSpec.core) ∧
    ∀ p, ((qualifyFile fuel f h).2.funcs p).map FuncSpec.core = (h.funcs p).map FuncSpec.core := by
  unfold qualifyFile
  cases hf : h.files f with
  | none => exact ⟨fun _ => rfl, fun _ => rfl, fun _ => rfl⟩
  | some file => exact (steps_fileElems fuel file.elements h file.imports).cores

theorem renderFile_heap (env : Env) (fuel : Nat) (f : Ptr) (h : Heap) :
    (renderFile env fuel f h).2 = (qualifyFile fuel f h).2 := by
  unfold renderFile
  rcases qualifyFile fuel f h with ⟨_ | _ | _, h'⟩ <;> rfl

theorem addElement_ok {h h' : Heap} {f : Ptr} {e : FileElem} (hx : addElement h f e = .ok h') :
    ∃ h1 file, e.setParent f h = .ok h1 ∧ h1.files f = some file ∧
      h' = { h1 with files := upd h1.files f { file with elements := file.elements ++ [e] } } := by
  obtain ⟨h1, h2, h3⟩ := bind_eq_ok hx
  obtain ⟨file, h4, h5⟩ := bind_eq_ok h3
  refine ⟨h1, file, h2, ?_, ?_⟩
  · unfold deref at h4; split at h4 <;> simp_all
  · simpa [pure] using h5.symm

theorem addElement_effect {h h' : Heap} {f : Ptr} {e : FileElem} (hx : addElement h f e = .ok h') :
    AddEffect (.element f e) h h' := by
  obtain ⟨h1, file, h2, h3, rfl⟩ := addElement_ok hx
  have files : ∀ q, h1.files = h.files →
      ((upd h1.files f { file with elements := file.elements ++ [e] }) q).map GoFile.package
        = (h.files q).map GoFile.package := by
    intro q hq
    by_cases hqf : q = f
    · subst hqf; rw [upd_same, ← hq, h3]; rfl
    · rw [upd_ne _ _ hqf, hq]
  cases e with
  | values d =>
    obtain ⟨D, h4, h5⟩ := bind_eq_ok h2
    obtain ⟨m, h6, h7⟩ := bind_eq_ok h5
    obtain ⟨h8, h9⟩ := setParents_ok (by intro; rfl) h6
    have h7 : { h with values := m } = h1 := by simpa [pure] using h7
    subst h7
    have hD : h.valueDecls d = some D := by unfold deref at h4; split at h4 <;> simp_all
    refine ⟨?_, ?_, fun p g hg => hg.elim, fun _ _ => rfl, fun p g hg => hg.elim, fun _ _ => rfl,
      fun q => files q rfl⟩
    · rintro p g ⟨rfl, D', hD', hin⟩
      rw [hD] at hD'
      cases hD'
      obtain ⟨c, hc, hc'⟩ := h8 p hin
      exact ⟨c, _, hc, hc', rfl, rfl, by simp only at h3; simp [h3]⟩
    · intro p hp
      have : p ∉ D.specs := fun hin => hp f ⟨rfl, D, hD, hin⟩
      simp only [h9 p this]
  | types d =>
    obtain ⟨D, h4, h5⟩ := bind_eq_ok h2
    obtain ⟨m, h6, h7⟩ := bind_eq_ok h5
    obtain ⟨h8, h9⟩ := setParents_ok (by intro; rfl) h6
    have h7 : { h with types := m } = h1 := by simpa [pure] using h7
    subst h7
    have hD : h.typeDecls d = some D := by unfold deref at h4; split at h4 <;> simp_all
    refine ⟨fun p g hg => hg.elim, fun _ _ => rfl, ?_, ?_, fun p g hg => hg.elim, fun _ _ => rfl,
      fun q => files q rfl⟩
    · rintro p g ⟨rfl, D', hD', hin⟩
      rw [hD] at hD'
      cases hD'
      obtain ⟨c, hc, hc'⟩ := h8 p hin
      exact ⟨c, _, hc, hc', rfl, rfl, by simp only at h3; simp [h3]⟩
    · intro p hp
      have : p ∉ D.types := fun hin => hp f ⟨rfl, D, hD, hin⟩
      simp only [h9 p this]
  | func r =>
    obtain ⟨m, h6, h7⟩ := bind_eq_ok h2
    obtain ⟨h8, h9⟩ := setParents_ok (by intro; rfl) h6
    have h7 : { h with funcs := m } = h1 := by simpa [pure] using h7
    subst h7
    refine ⟨fun p g hg => hg.elim, fun _ _ => rfl, fun p g hg => hg.elim, fun _ _ => rfl, ?_, ?_,
      fun q => files q rfl⟩
    · rintro p g ⟨rfl, rfl⟩
      obtain ⟨c, hc, hc'⟩ := h8 p (by simp)
      exact ⟨c, _, hc, hc', rfl, rfl, rfl, by simp only at h3; simp [h3]⟩
    · intro p hp
      have : p ∉ [r] := fun hin => hp f ⟨rfl, by simpa using hin⟩
      simp only [h9 p this]

theorem AddOp.effect {op : AddOp} {h h' : Heap} (hx : op.exec h = .ok h') : AddEffect op h h' := by
  cases op with
  | element f e => exact addElement_effect hx
  | value f k s =>
    have e := addElement_effect hx
    refine ⟨?_, ?_, fun p g hg => hg.elim, fun p _ => e.typeKept p (by simp [AddOp.Adds]),
      fun p g hg => hg.elim, fun p _ => e.funcKept p (by simp [AddOp.Adds]), e.files⟩
    · rintro p g ⟨rfl, rfl⟩
      exact e.value p g ⟨rfl, _, upd_same _ _ _, by simp⟩
    · intro p hp
      refine e.valueKept p ?_
      rintro g ⟨rfl, D, hD, hin⟩
      simp only [upd_same, Option.some.injEq] at hD
      subst hD
      exact hp g ⟨rfl, by simpa using hin⟩
  | type f t =>
    have e := addElement_effect hx
    refine ⟨fun p g hg => hg.elim, fun p _ => e.valueKept p (by simp [AddOp.Adds]), ?_, ?_,
      fun p g hg => hg.elim, fun p _ => e.funcKept p (by simp [AddOp.Adds]), e.files⟩
    · rintro p g ⟨rfl, rfl⟩
      exact e.type p g ⟨rfl, _, upd_same _ _ _, by simp⟩
    · intro p hp
      refine e.typeKept p ?_
      rintro g ⟨rfl, D, hD, hin⟩
      simp only [upd_same, Option.some.injEq] at hD
      subst hD
      exact hp g ⟨rfl, by simpa using hin⟩
  | declValue d s =>
    obtain ⟨D, _, h2⟩ := bind_eq_ok hx
    cases h2
    exact ⟨fun p g hg => hg.elim, fun _ _ => rfl, fun p g hg => hg.elim, fun _ _ => rfl,
      fun p g hg => hg.elim, fun _ _ => rfl, fun _ => rfl⟩
  | declType d s =>
    obtain ⟨D, _, h2⟩ := bind_eq_ok hx
    cases h2
    exact ⟨fun p g hg => hg.elim, fun _ _ => rfl, fun p g hg => hg.elim, fun _ _ => rfl,
      fun p g hg => hg.elim, fun _ _ => rfl, fun _ => rfl⟩
  | render env fuel f =>
    have h2 : (qualifyFile fuel f h).2 = h' := by
      simpa [AddOp.exec, renderFile_heap] using hx
    subst h2
    obtain ⟨h1, h2, h3⟩ := qualifyFile_cores fuel f h
    refine ⟨fun p g hg => hg.elim, fun p _ => h1 p, fun p g hg => hg.elim, fun p _ => h2 p,
      fun p g hg => hg.elim, fun p _ => h3 p, fun q => ?_⟩
    rcases hq : qualifyFile fuel f h with ⟨o, h'⟩
    have := congrArg (Option.map Prod.fst) (qualifyFile_files hq q)
    rw [Option.map_map, Option.map_map] at this
    exact this


/-- The core of a spec: its names, receiver and parent. -/
theorem StaysIn.value {p f : Ptr} {ns : List GoString} : ∀ {ops : List AddOp} {h h' : Heap},
    AddOp.run ops h = .ok h' → StaysIn (.value p) f ops h →
    (h.values p).map ValueSpec.core = some (ns, some f) →
    (h'.values p).map ValueSpec.core = some (ns, some f) := by
  intro ops
  induction ops with
  | nil => intro h h' hr _ hc; cases hr; exact hc
  | cons op ops ih =>
    intro h h' hr hs hc
    obtain ⟨h1, h2, h3⟩ := bind_eq_ok hr
    refine ih h3 (hs.2 h1 h2) ?_
    have e := AddOp.effect h2
    by_cases ha : ∃ g, op.Adds h (.value p) g
    · obtain ⟨g, hg⟩ := ha
      obtain rfl := hs.1 g hg
      obtain ⟨c, c', h4, h5, h6, h7, _⟩ := e.value p g hg
      rw [h4] at hc
      simp only [Option.map_some, ValueSpec.core, Option.some.injEq, Prod.mk.injEq] at hc
      simp [h5, ValueSpec.core, h6, h7, hc.1]
    · rw [e.valueKept p (by simpa using ha), hc]

theorem StaysIn.type {p f : Ptr} {n : GoString} : ∀ {ops : List AddOp} {h h' : Heap},
    AddOp.run ops h = .ok h' → StaysIn (.type p) f ops h →
    (h.types p).map TypeSpec.core = some (n, some f) →
    (h'.types p).map TypeSpec.core = some (n, some f) := by
  intro ops
  induction ops with
  | nil => intro h h' hr _ hc; cases hr; exact hc
  | cons op ops ih =>
    intro h h' hr hs hc
    obtain ⟨h1, h2, h3⟩ := bind_eq_ok hr
    refine ih h3 (hs.2 h1 h2) ?_
    have e := AddOp.effect h2
    by_cases ha : ∃ g, op.Adds h (.type p) g
    · obtain ⟨g, hg⟩ := ha
      obtain rfl := hs.1 g hg
      obtain ⟨c, c', h4, h5, h6, h7, _⟩ := e.type p g hg
      rw [h4] at hc
      simp only [Option.map_some, TypeSpec.core, Option.some.injEq, Prod.mk.injEq] at hc
      simp [h5, TypeSpec.core, h6, h7, hc.1]
    · rw [e.typeKept p (by simpa using ha), hc]

theorem StaysIn.func {p f : Ptr} {n : GoString} {r : Option ReceiverSpec} :
    ∀ {ops : List AddOp} {h h' : Heap},
    AddOp.run ops h = .ok h' → StaysIn (.func p) f ops h →
    (h.funcs p).map FuncSpec.core = some (n, r, some f) →
    (h'.funcs p).map FuncSpec.core = some (n, r, some f) := by
  intro ops
  induction ops with
  | nil => intro h h' hr _ hc; cases hr; exact hc
  | cons op ops ih =>
    intro h h' hr hs hc
    obtain ⟨h1, h2, h3⟩ := bind_eq_ok hr
    refine ih h3 (hs.2 h1 h2) ?_
    have e := AddOp.effect h2
    by_cases ha : ∃ g, op.Adds h (.func p) g
    · obtain ⟨g, hg⟩ := ha
      obtain rfl := hs.1 g hg
      obtain ⟨c, c', h4, h5, h6, h7, h8, _⟩ := e.func p g hg
      rw [h4] at hc
      simp only [Option.map_some, FuncSpec.core, Option.some.injEq, Prod.mk.injEq] at hc
      simp [h5, FuncSpec.core, h6, h7, h8, hc.1, hc.2.1]
    · rw [e.funcKept p (by simpa using ha), hc]

theorem run_files : ∀ {ops : List AddOp} {h h' : Heap}, AddOp.run ops h = .ok h' →
    ∀ q, (h'.files q).map GoFile.package = (h.files q).map GoFile.package := by
  intro ops
  induction ops with
  | nil => intro h h' hr q; cases hr; rfl
  | cons op ops ih =>
    intro h h' hr q
    obtain ⟨h1, h2, h3⟩ := bind_eq_ok hr
    rw [ih h3 q, (AddOp.effect h2).files q]

theorem packageAt_of {h : Heap} {f : Ptr} {pkg : Package}
    (hf : (h.files f).map GoFile.package = some pkg) : packageAt h f = .ok pkg := by
  cases hx : h.files f with
  | none => simp [hx] at hf
  | some file =>
    simp only [hx, Option.map_some, Option.some.injEq] at hf
    simp [packageAt, deref, hx, hf, bind, Outcome.bind, pure]

/-- C28, consts and vars: after a spec was added to a file, and as long as it is not added to
another one, its symbols have its names and the package of that file; there are no others, and `ToSymbol` is for specs with one name
only. -/
theorem C28_value {op : AddOp} {later : List AddOp} {h h1 h2 : Heap} {p f : Ptr} {file : GoFile}
    (hfile : h.files f = some file) (hop : op.exec h = .ok h1) (ha : op.Adds h (.value p) f)
    (hl : AddOp.run later h1 = .ok h2) (hs : StaysIn (.value p) f later h1) :
    ∃ c c2, h.values p = some c ∧ h2.values p = some c2 ∧ c2.names = c.names ∧
      (∀ k n, c.names[k]? = some n → c2.symbolAt h2 k = .ok ⟨file.package, n⟩) ∧
      (∀ k, c.names.length ≤ k → c2.symbolAt h2 k = .panic) ∧
      (∀ n, c.names = [n] → c2.toSymbol h2 = .ok ⟨file.package, n⟩) ∧
      (c.names.length ≠ 1 → c2.toSymbol h2 = .panic) := by
  have e := AddOp.effect hop
  obtain ⟨c, c', h4, h5, h6, h7, _⟩ := e.value p f ha
  have h8 := StaysIn.value (ns := c.names) hl hs (by simp [h5, ValueSpec.core, h6, h7])
  have hpkg : packageAt h2 f = .ok file.package :=
    packageAt_of (by rw [run_files hl f, e.files f, hfile]; rfl)
  cases hc2 : h2.values p with
  | none => simp [hc2] at h8
  | some c2 =>
    simp only [hc2, Option.map_some, ValueSpec.core, Option.some.injEq, Prod.mk.injEq] at h8
    have hat : ∀ k n, c.names[k]? = some n → c2.symbolAt h2 k = .ok ⟨file.package, n⟩ := by
      intro k n hk
      simp only [ValueSpec.symbolAt, h8.1, h8.2, hk, hpkg]; rfl
    refine ⟨c, c2, h4, rfl, h8.1, hat, fun k hk => ?_, fun n hn => ?_, fun hn => ?_⟩
    · simp only [ValueSpec.symbolAt, h8.1, h8.2, List.getElem?_eq_none hk]
    · rw [ValueSpec.toSymbol, if_neg (by simp [h8.1, hn])]
      exact hat 0 n (by simp [hn])
    · rw [ValueSpec.toSymbol, if_pos (by rw [h8.1]; exact hn)]

/-- C28, types. -/
theorem C28_type {op : AddOp} {later : List AddOp} {h h1 h2 : Heap} {p f : Ptr} {file : GoFile}
    (hfile : h.files f = some file) (hop : op.exec h = .ok h1) (ha : op.Adds h (.type p) f)
    (hl : AddOp.run later h1 = .ok h2) (hs : StaysIn (.type p) f later h1) :
    ∃ t t2, h.types p = some t ∧ h2.types p = some t2 ∧ t2.name = t.name ∧
      (t.name ≠ [] → t2.toSymbol h2 = .ok ⟨file.package, t.name⟩) ∧
      (t.name = [] → t2.toSymbol h2 = .panic) := by
  have e := AddOp.effect hop
  obtain ⟨t, t', h4, h5, h6, h7, _⟩ := e.type p f ha
  have h8 := StaysIn.type (n := t.name) hl hs (by simp [h5, TypeSpec.core, h6, h7])
  have hpkg : packageAt h2 f = .ok file.package :=
    packageAt_of (by rw [run_files hl f, e.files f, hfile]; rfl)
  cases hc2 : h2.types p with
  | none => simp [hc2] at h8
  | some t2 =>
    simp only [hc2, Option.map_some, TypeSpec.core, Option.some.injEq, Prod.mk.injEq] at h8
    refine ⟨t, t2, h4, rfl, h8.1, fun hn => ?_, fun hn => ?_⟩
    · simp only [TypeSpec.toSymbol, h8.1, h8.2, hpkg, if_neg hn]; rfl
    · simp only [TypeSpec.toSymbol, h8.1, if_pos hn]

/-- C28, functions and methods. -/
theorem C28_func {op : AddOp} {later : List AddOp} {h h1 h2 : Heap} {p f : Ptr} {file : GoFile}
    (hfile : h.files f = some file) (hop : op.exec h = .ok h1) (ha : op.Adds h (.func p) f)
    (hl : AddOp.run later h1 = .ok h2) (hs : StaysIn (.func p) f later h1) :
    ∃ g g2, h.funcs p = some g ∧ h2.funcs p = some g2 ∧ g2.name = g.name ∧
      (g.receiver = none → g2.toSymbol h2 = .ok (.symbol ⟨file.package, g.name⟩)) ∧
      ∀ r, g.receiver = some r →
        g2.toSymbol h2 = .ok (.method ⟨⟨file.package, r.type⟩, g.name⟩) := by
  have e := AddOp.effect hop
  obtain ⟨t, t', h4, h5, h6, h7, h7', _⟩ := e.func p f ha
  have h8 := StaysIn.func (n := t.name) (r := t.receiver) hl hs
    (by simp [h5, FuncSpec.core, h6, h7, h7'])
  have hpkg : packageAt h2 f = .ok file.package :=
    packageAt_of (by rw [run_files hl f, e.files f, hfile]; rfl)
  cases hc2 : h2.funcs p with
  | none => simp [hc2] at h8
  | some t2 =>
    simp only [hc2, Option.map_some, FuncSpec.core, Option.some.injEq, Prod.mk.injEq] at h8
    refine ⟨t, t2, h4, rfl, h8.1, fun hn => ?_, fun r hn => ?_⟩
    · simp only [FuncSpec.toSymbol, h8.1, h8.2.1, h8.2.2, hpkg, hn]; rfl
    · simp only [FuncSpec.toSymbol, h8.1, h8.2.1, h8.2.2, hpkg, hn]; rfl

/-- C28: what is shown for a function or method of a file, and for the symbol of it. Without package name there is no
qualifier. -/
theorem C28_func_text {op : AddOp} {later : List AddOp} {h h1 h2 : Heap} {p f : Ptr} {file : GoFile}
    (hfile : h.files f = some file) (hop : op.exec h = .ok h1) (ha : op.Adds h (.func p) f)
    (hl : AddOp.run later h1 = .ok h2) (hs : StaysIn (.func p) f later h1) :
    ∃ g g2 q, h.funcs p = some g ∧ h2.funcs p = some g2 ∧
      q = (if file.packageName = [] then [] else file.packageName ++ b! ".") ∧
      (g.receiver = none → g2.string h2 = .ok (q ++ g.name) ∧ ∃ x, g2.toSymbol h2 = .ok x ∧ x.string = q ++ g.name) ∧
      ∀ r, g.receiver = some r → g2.string h2 = .ok g.name ∧
        ∃ x, g2.toSymbol h2 = .ok x ∧ x.string = q ++ r.type ++ b! "." ++ g.name := by
  obtain ⟨g, g2, e1, e2, e3, e4, e5⟩ := C28_func hfile hop ha hl hs
  have sym : ∀ n, Symbol.string ⟨file.package, n⟩ =
      (if file.packageName = [] then [] else file.packageName ++ b! ".") ++ n := by
    intro n
    rw [Symbol.string]
    by_cases hn : file.packageName = []
    · rw [if_pos hn, if_neg (by simpa [GoFile.package] using hn)]; rfl
    · rw [if_neg hn, if_pos (by simpa [GoFile.package] using hn)]; rfl
  have hcore : g2.receiver = g.receiver ∧ g2.parent ≠ none := by
    have e := AddOp.effect hop
    obtain ⟨t, t', h4, h5, h6, h7, h7', _⟩ := e.func p f ha
    have h8 := StaysIn.func (n := t.name) (r := t.receiver) hl hs
      (by simp [h5, FuncSpec.core, h6, h7, h7'])
    rw [e1] at h4
    cases h4
    simp only [e2, Option.map_some, FuncSpec.core, Option.some.injEq, Prod.mk.injEq] at h8
    exact ⟨h8.2.1, by rw [h8.2.2]; simp⟩
  refine ⟨g, g2, _, e1, e2, rfl, fun hr => ?_, fun r hr => ?_⟩
  · refine ⟨?_, _, e4 hr, sym _⟩
    rw [FuncSpec.string, if_neg (by rw [hcore.1, hr]; simpa using hcore.2), e4 hr]
    exact congrArg Outcome.ok (sym _)
  · refine ⟨?_, _, e5 r hr, ?_⟩
    · rw [FuncSpec.string, if_pos (by rw [hcore.1, hr]; simp), e3]
    · rw [SymbolOrMethodRef.string, MethodReference.string, sym]

theorem NeverAdded.value {p : Ptr} : ∀ {ops : List AddOp} {h h' : Heap},
    AddOp.run ops h = .ok h' → NeverAdded (.value p) ops h →
    (h'.values p).map ValueSpec.core = (h.values p).map ValueSpec.core := by
  intro ops
  induction ops with
  | nil => intro h h' hr _; cases hr; rfl
  | cons op ops ih =>
    intro h h' hr hs
    obtain ⟨h1, h2, h3⟩ := bind_eq_ok hr
    rw [ih h3 (hs.2 h1 h2), (AddOp.effect h2).valueKept p hs.1]

theorem NeverAdded.type {p : Ptr} : ∀ {ops : List AddOp} {h h' : Heap},
    AddOp.run ops h = .ok h' → NeverAdded (.type p) ops h →
    (h'.types p).map TypeSpec.core = (h.types p).map TypeSpec.core := by
  intro ops
  induction ops with
  | nil => intro h h' hr _; cases hr; rfl
  | cons op ops ih =>
    intro h h' hr hs
    obtain ⟨h1, h2, h3⟩ := bind_eq_ok hr
    rw [ih h3 (hs.2 h1 h2), (AddOp.effect h2).typeKept p hs.1]

theorem NeverAdded.func {p : Ptr} : ∀ {ops : List AddOp} {h h' : Heap},
    AddOp.run ops h = .ok h' → NeverAdded (.func p) ops h →
    (h'.funcs p).map FuncSpec.core = (h.funcs p).map FuncSpec.core := by
  intro ops
  induction ops with
  | nil => intro h h' hr _; cases hr; rfl
  | cons op ops ih =>
    intro h h' hr hs
    obtain ⟨h1, h2, h3⟩ := bind_eq_ok hr
    rw [ih h3 (hs.2 h1 h2), (AddOp.effect h2).funcKept p hs.1]

/-- C28: a spec that was never added to a file has no symbol. -/
theorem C28_panics_before {ops : List AddOp} {h h' : Heap} (hr : AddOp.run ops h = .ok h') :
    (∀ p c, h.values p = some c → c.parent = none → NeverAdded (.value p) ops h →
      ∃ c', h'.values p = some c' ∧ c'.toSymbol h' = .panic ∧ ∀ k, c'.symbolAt h' k = .panic) ∧
    (∀ p t, h.types p = some t → t.parent = none → NeverAdded (.type p) ops h →
      ∃ t', h'.types p = some t' ∧ t'.toSymbol h' = .panic) ∧
    ∀ p f, h.funcs p = some f → f.parent = none → NeverAdded (.func p) ops h →
      ∃ f', h'.funcs p = some f' ∧ f'.toSymbol h' = .panic := by
  refine ⟨fun p c hc hp hn => ?_, fun p t ht hp hn => ?_, fun p f hf hp hn => ?_⟩
  · have := NeverAdded.value hr hn
    cases hc' : h'.values p with
    | none => simp [hc', hc] at this
    | some c' =>
      simp only [hc', hc, Option.map_some, ValueSpec.core, Option.some.injEq, Prod.mk.injEq] at this
      have hat : ∀ k, c'.symbolAt h' k = .panic := by
        intro k; simp only [ValueSpec.symbolAt, this.2, hp]
      refine ⟨c', rfl, ?_, hat⟩
      rw [ValueSpec.toSymbol]
      split
      · rfl
      · exact hat 0
  · have := NeverAdded.type hr hn
    cases hc' : h'.types p with
    | none => simp [hc', ht] at this
    | some c' =>
      simp only [hc', ht, Option.map_some, TypeSpec.core, Option.some.injEq, Prod.mk.injEq] at this
      refine ⟨c', rfl, ?_⟩
      rw [TypeSpec.toSymbol, this.2, hp]
      split <;> rfl
  · have := NeverAdded.func hr hn
    cases hc' : h'.funcs p with
    | none => simp [hc', hf] at this
    | some c' =>
      simp only [hc', hf, Option.map_some, FuncSpec.core, Option.some.injEq, Prod.mk.injEq] at this
      refine ⟨c', rfl, ?_⟩
      rw [FuncSpec.toSymbol, this.2.2, hp]

/-- Every spec that has a parent has one that exists. -/
structure ParentsExist (h : Heap) : Prop where
  value : ∀ p c f, h.values p = some c → c.parent = some f → h.files f ≠ none
  type : ∀ p c f, h.types p = some c → c.parent = some f → h.files f ≠ none
  func : ∀ p c f, h.funcs p = some c → c.parent = some f → h.files f ≠ none

theorem files_ne_none {h h' : Heap} {q : Ptr}
    (e : (h'.files q).map GoFile.package = (h.files q).map GoFile.package) (hq : h.files q ≠ none) :
    h'.files q ≠ none := by
  intro hn
  rw [hn] at e
  cases hx : h.files q with
  | none => exact hq hx
  | some f => simp [hx] at e

theorem ParentsExist.exec {op : AddOp} {h h' : Heap} (hp : ParentsExist h)
    (hx : op.exec h = .ok h') : ParentsExist h' := by
  have e := AddOp.effect hx
  refine ⟨fun p c f hc hf => ?_, fun p c f hc hf => ?_, fun p c f hc hf => ?_⟩
  all_goals refine files_ne_none (e.files f) ?_
  · by_cases ha : ∃ g, op.Adds h (.value p) g
    · obtain ⟨g, hg⟩ := ha
      obtain ⟨c0, c', _, h5, _, h7, h8⟩ := e.value p g hg
      rw [hc] at h5; cases h5
      rw [hf] at h7; cases h7
      exact h8
    · have := e.valueKept p (by simpa using ha)
      cases hc0 : h.values p with
      | none => simp [hc, hc0] at this
      | some c0 =>
        simp only [hc, hc0, Option.map_some, ValueSpec.core, Option.some.injEq, Prod.mk.injEq] at this
        exact hp.value p c0 f hc0 (by rw [← this.2, hf])
  · by_cases ha : ∃ g, op.Adds h (.type p) g
    · obtain ⟨g, hg⟩ := ha
      obtain ⟨c0, c', _, h5, _, h7, h8⟩ := e.type p g hg
      rw [hc] at h5; cases h5
      rw [hf] at h7; cases h7
      exact h8
    · have := e.typeKept p (by simpa using ha)
      cases hc0 : h.types p with
      | none => simp [hc, hc0] at this
      | some c0 =>
        simp only [hc, hc0, Option.map_some, TypeSpec.core, Option.some.injEq, Prod.mk.injEq] at this
        exact hp.type p c0 f hc0 (by rw [← this.2, hf])
  · by_cases ha : ∃ g, op.Adds h (.func p) g
    · obtain ⟨g, hg⟩ := ha
      obtain ⟨c0, c', _, h5, _, _, h7, h8⟩ := e.func p g hg
      rw [hc] at h5; cases h5
      rw [hf] at h7; cases h7
      exact h8
    · have := e.funcKept p (by simpa using ha)
      cases hc0 : h.funcs p with
      | none => simp [hc, hc0] at this
      | some c0 =>
        simp only [hc, hc0, Option.map_some, FuncSpec.core, Option.some.injEq, Prod.mk.injEq] at this
        exact hp.func p c0 f hc0 (by rw [← this.2.2, hf])

theorem ParentsExist.run : ∀ {ops : List AddOp} {h h' : Heap}, ParentsExist h →
    AddOp.run ops h = .ok h' → ParentsExist h' := by
  intro ops
  induction ops with
  | nil => intro h h' hp hr; cases hr; exact hp
  | cons op ops ih =>
    intro h h' hp hr
    obtain ⟨h1, h2, h3⟩ := bind_eq_ok hr
    exact ih (hp.exec h2) h3

theorem packageAt_ok {h : Heap} {f : Ptr} (hf : h.files f ≠ none) : ∃ pkg, packageAt h f = .ok pkg := by
  cases hx : h.files f with
  | none => exact absurd hx hf
  | some file => exact ⟨file.package, packageAt_of (by rw [hx]; rfl)⟩

theorem symbolStrings_ok {h : Heap} {c : ValueSpec} : ∀ {l : List Nat},
    (∀ k ∈ l, ∃ s, c.symbolAt h k = .ok s) → ∃ ss, symbolStrings h c l = .ok ss
  | [], _ => ⟨[], rfl⟩
  | k :: l, hk => by
    obtain ⟨s, hs⟩ := hk k (by simp)
    obtain ⟨ss, hss⟩ := symbolStrings_ok (l := l) fun k hk' => hk k (by simp [hk'])
    exact ⟨s.string :: ss, by simp only [symbolStrings, hs, hss]; rfl⟩

/-- C28: `String` of a named spec never panics, whether or not the spec was added to a file. -/
theorem C28_string {tbl : Nat → Bool} {ops : List AddOp} {h h' : Heap} (hp : ParentsExist h)
    (hr : AddOp.run ops h = .ok h') :
    (∀ p c, h'.values p = some c → ∃ s, c.string h' = .ok s) ∧
    (∀ p t, h'.types p = some t → t.name ≠ [] → ∃ s, t.string tbl h' = .ok s) ∧
    ∀ p f, h'.funcs p = some f → ∃ s, f.string h' = .ok s := by
  have hp' := hp.run hr
  refine ⟨fun p c hc => ?_, fun p t ht hn => ?_, fun p f hf => ?_⟩
  · rw [ValueSpec.string]
    cases hpar : c.parent with
    | none => split <;> exact ⟨_, rfl⟩
    | some f =>
      obtain ⟨pkg, hpkg⟩ := packageAt_ok (hp'.value p c f hc hpar)
      have hat : ∀ k, k < c.names.length → ∃ s, c.symbolAt h' k = .ok s := by
        intro k hk
        exact ⟨⟨pkg, c.names[k]⟩, by simp only [ValueSpec.symbolAt, hpar, List.getElem?_eq_getElem hk, hpkg]; rfl⟩
      by_cases h1 : c.names.length = 1
      · rw [if_neg (by simpa using h1)]
        obtain ⟨s, hs⟩ := hat 0 (by omega)
        exact ⟨s.string, by simp only [ValueSpec.toSymbol, h1, hs]; rfl⟩
      · rw [if_pos h1]
        obtain ⟨ss, hss⟩ := symbolStrings_ok (h := h') (c := c) (l := List.range c.names.length)
          fun k hk => hat k (by simpa using hk)
        exact ⟨_, by simp only [hss]; rfl⟩
  · rw [TypeSpec.string, if_neg hn]
    cases hpar : t.parent with
    | none => exact ⟨_, rfl⟩
    | some f =>
      obtain ⟨pkg, hpkg⟩ := packageAt_ok (hp'.type p t f ht hpar)
      exact ⟨_, by simp only [TypeSpec.toSymbol, if_neg hn, hpar, hpkg]; rfl⟩
  · rw [FuncSpec.string]
    cases hpar : f.parent with
    | none => exact ⟨_, rfl⟩
    | some q =>
      obtain ⟨pkg, hpkg⟩ := packageAt_ok (hp'.func p f q hf hpar)
      cases hrc : f.receiver with
      | some r => exact ⟨f.name, by simp⟩
      | none => exact ⟨_, by rw [if_neg (by simp), FuncSpec.toSymbol]; simp only [hpar, hpkg, hrc]; rfl⟩

/-- Two files at 0 and 1, a const `A, B` at 2 and a type `T` at 3 and a declaration of `A, B` at 4. -/
def exAdd : Heap where
  files p := if p = 0 then some { name := b! "p.go", packageName := b! "p", imports := newImportsFor (b! "x/p") }
    else if p = 1 then some { name := b! "q.go", packageName := b! "q", imports := newImportsFor (b! "x/q") }
    else none
  values p := if p = 2 then some { kind := .const, names := [b! "A", b! "B"] } else none
  types p := if p = 3 then some { name := b! "T", underlying := .basic .int } else none
  valueDecls p := if p = 4 then some { kind := .const, specs := [2] } else none
  next := 5

example : ((AddOp.run [.element 0 (.values 4), .type 0 3] exAdd).bind fun h =>
    (deref h.values 2).bind fun c => c.symbolAt h 1)
    = .ok ⟨⟨b! "x/p", b! "p"⟩, b! "B"⟩ := by decide
/- Added to another file, a spec belongs to that one. -/
example : ((AddOp.run [.element 0 (.values 4), .type 0 3, .value 1 .var 2] exAdd).bind fun h =>
    (deref h.values 2).bind fun c => c.symbolAt h 1)
    = .ok ⟨⟨b! "x/q", b! "q"⟩, b! "B"⟩ := by decide
example : ((AddOp.run [.element 0 (.values 4)] exAdd).bind fun h =>
    (deref h.types 3).bind fun c => c.toSymbol h) = .panic := by decide
/- A spec put into a declaration after that was added to a file belongs to no file. -/
def exLate : Outcome Heap := AddOp.run [.type 0 3, .declType 7 6] { exAdd with
  types := upd exAdd.types 6 { name := b! "U", underlying := .basic .int }, next := 7 }
example : (exLate.bind fun h => (deref h.types 6).bind fun c => c.toSymbol h) = .panic := by decide
example : (exLate.bind fun h => (deref h.types 6).bind fun c => c.string (fun _ => true) h)
    = .ok (b! "U") := by decide
example : (exLate.bind fun h => (deref h.types 3).bind fun c => c.string (fun _ => true) h)
    = .ok (b! "p.T") := by decide
/- A method of `T` is shown as its name, and its symbol with package and type. -/
example : ((AddOp.run [.element 0 (.func 6)] { exAdd with
    funcs := upd exAdd.funcs 6 { name := b! "M", receiver := some ⟨b! "t", b! "T", true⟩ }, next := 7 }).bind fun h =>
    (deref h.funcs 6).bind fun g => (g.toSymbol h).bind fun x => (g.string h).bind fun s => .ok (s, x.string))
    = .ok (b! "M", b! "p.T.M") := by decide

/-! ## C29 -/

theorem concatText_ok {α} {f : α → Outcome GoString} : ∀ {l : List α} {s : GoString},
    concatText f l = .ok s → ∃ ts, List.Forall₂ (fun a t => f a = .ok t) l ts ∧ s = ts.flatten
  | [], s, h => by cases h; exact ⟨[], .nil, rfl⟩
  | a :: l, s, h => by
    obtain ⟨x, hx, h⟩ := bind_eq_ok h
    obtain ⟨y, hy, h⟩ := bind_eq_ok h
    obtain ⟨ts, h1, h2⟩ := concatText_ok hy
    cases h
    exact ⟨x :: ts, .cons hx h1, by simp [h2]⟩

theorem commentBlock_writeComment (c : GoString) : CommentBlock c (writeComment c) := by
  by_cases hc : c = []
  · subst hc; exact .none
  · obtain ⟨ls, h1, _, h2⟩ := C26_reads_back c hc
    exact .lines hc h1 h2

theorem literal_quote (tbl : Nat → Bool) (s : GoString) : Literal s (quote tbl s) :=
  fun rest => stringLit_quote tbl s rest

theorem renderFile_ok {env : Env} {fuel : Nat} {p : Ptr} {h h' : Heap} {text : GoString}
    (hr : renderFile env fuel p h = (.ok text, h')) :
    ∃ f i, h.files p = some f ∧ QM.forEach (FileElem.qualify fuel) f.elements h f.imports
        = (.ok (), { h' with files := h.files }, i) ∧
      h'.files = upd h.files p { f with imports := i } ∧
      ({ f with imports := i } : GoFile).text env h' fuel = .ok text := by
  unfold renderFile qualifyFile at hr
  cases hf : h.files p with
  | none => rw [hf] at hr; simp at hr
  | some f =>
    rw [hf] at hr
    simp only at hr
    have hs := (steps_fileElems fuel f.elements h f.imports).files
    rcases hx : QM.forEach (FileElem.qualify fuel) f.elements h f.imports with ⟨_ | _ | _, h1, i⟩ <;>
      rw [hx] at hr hs <;> simp only [Prod.mk.injEq] at hr
    · obtain ⟨hr, rfl⟩ := hr
      simp only at hs
      refine ⟨f, i, rfl, ?_, by rw [hs], ?_⟩
      · rw [hx, ← hs]
      · simpa [deref, Outcome.bind] using hr
    · simp at hr
    · simp at hr

/-- C29: what `WriteGoFile` hands to the formatter (`C36_writeGoFile`) are the parts of the file in
their order. -/
theorem C29_layout {env : Env} {fuel : Nat} {p : Ptr} {h h' : Heap} {text : GoString}
    (hr : renderFile env fuel p h = (.ok text, h')) :
    ∃ f i elems, h.files p = some f ∧ h'.files p = some { f with imports := i } ∧
      List.Forall₂ (fun e t => FileElem.text env h' fuel e = .ok t) f.elements elems ∧
      LaidOut { f with imports := i } elems text := by
  obtain ⟨f, i, h1, _, h3, h4⟩ := renderFile_ok hr
  obtain ⟨body, h5, h6⟩ := bind_eq_ok h4
  obtain ⟨ts, h7, h8⟩ := concatText_ok h5
  have h9 : ∃ elems, List.Forall₂ (fun e t => FileElem.text env h' fuel e = .ok t) f.elements elems ∧
      body = elems.flatMap (b! "\n" ++ ·) := by
    subst h8
    simp only at h7
    generalize f.elements = es at h7 ⊢
    clear h5 h6 h4
    induction h7 with
    | nil => exact ⟨[], .nil, rfl⟩
    | cons hx _ ih =>
      obtain ⟨elems, h1, h2⟩ := ih
      obtain ⟨s, h3, h4⟩ := bind_eq_ok hx
      cases h4
      exact ⟨s :: elems, .cons h3 h1, by simp only [List.flatten_cons, h2]; rfl⟩
  obtain ⟨elems, h9, h10⟩ := h9
  refine ⟨f, i, elems, h1, by rw [h3, upd_same], h9, writeComment f.fileComment,
    writeComment f.packageComment, ({ f with imports := i } : GoFile).packageClause env.isPrint,
    i.importSpecs.map (ImportSpec.statement env.isPrint),
    commentBlock_writeComment _, commentBlock_writeComment _, ?_, ?_, ?_⟩
  · unfold PackageClause GoFile.packageClause
    by_cases hc : f.canonicalImportPath = []
    · exact .inl ⟨hc, by rw [if_neg (by simpa using hc)]⟩
    · exact .inr ⟨hc, _, literal_quote env.isPrint _, by rw [if_pos hc]⟩
  · simp only
    induction i.importSpecs with
    | nil => exact .nil
    | cons s l ih =>
      refine .cons ⟨_, literal_quote env.isPrint _, ?_⟩ ih
      unfold ImportSpec.statement
      by_cases ha : s.packageAlias = []
      · rw [if_neg (by simpa using ha), if_pos ha]; simp
      · rw [if_pos ha, if_neg ha]; simp
  · cases h6
    rw [h10]
    by_cases hc : f.fileComment = [] <;> simp [hc]

/-- C29: a file comment is a block of its own: it is followed by an empty line. -/
theorem C29_file_comment_apart {env : Env} {fuel : Nat} {p : Ptr} {h h' : Heap} {text : GoString}
    {f : GoFile} (hr : renderFile env fuel p h = (.ok text, h')) (hf : h.files p = some f)
    (hc : f.fileComment ≠ []) :
    ∃ lines rest, (∀ l ∈ lines, (10 : UInt8) ∉ l) ∧ joinWith (b! "\n") lines = f.fileComment ∧
      text = lines.flatMap (fun l => b! "// " ++ l ++ b! "\n") ++ b! "\n" ++ rest := by
  obtain ⟨f', i, h1, _, _, h4⟩ := renderFile_ok hr
  rw [hf] at h1; cases h1
  obtain ⟨body, _, h6⟩ := bind_eq_ok h4
  refine ⟨splitOn newline f.fileComment, writeComment f.packageComment
    ++ ({ f with imports := i } : GoFile).packageClause env.isPrint ++ b! "\n"
    ++ (i.importSpecs.map (ImportSpec.statement env.isPrint)).flatten ++ body,
    not_mem_splitOn newline _, joinWith_splitOn newline f.fileComment, ?_⟩
  cases h6
  simp only [writeComment, if_pos hc, List.append_assoc]

/-- A file with comments, one import and two elements. -/
def exFile : Heap where
  files p := if p = 0 then some { name := b! "p.go", packageName := b! "p", imports := newImportsFor (b! "x/p")
                                  fileComment := b! "file\nc", packageComment := b! "pkg", canonicalImportPath := b! "z/p"
                                  elements := [.values 1, .types 2] } else none
  values p := if p = 3 then some { kind := .const, names := [b! "A"], type := .name (.named ⟨⟨b! "x/q", b! "q"⟩, b! "N"⟩) } else none
  types p := if p = 4 then some { name := b! "T", underlying := .basic .int } else none
  valueDecls p := if p = 1 then some { kind := .const, specs := [3] } else none
  typeDecls p := if p = 2 then some { types := [4], comment := b! "d" } else none

example : (renderFile exEnv 3 0 exFile).1 = .ok (b! "// file\n// c\n\n// pkg\npackage p // import \"z/p\"\n\nimport \"x/q\"\n\nconst A q.N\n\n// d\ntype (\nT  int\n)\n") := by
  decide

end Gopoet
