import Verif.Proof.Trees
import Verif.Props.DataMemory
import Verif.Spec.SigMemory
/-! Property C57: the functions that qualify types and signatures end unless there are cycles. -/

namespace Gopoet
open Imports

/-! ## C57: termination for types and signatures -/

/-- C57 in full: EnsureTypeImported and QualifyType return or panic for every type. -/
def C57_full : Prop := ∀ (m : Mem) (t : MType) (i : Imports), ∃ n, ∀ fuel ≥ n,
  (ensureTypeImportedM fuel t m i).1 ≠ .hang ∧ (qualifyTypeOnlyM fuel t m i).1 ≠ .hang

/-- C57: EnsureTypeImported and QualifyType return or panic for every type that does not lead to a cycle. -/
theorem C57_types_terminate_partial {m : Mem} (hg : m.Good) {t : MType} (hs : m.Sound (.type t))
    (hc : ¬ m.Cyclic (.type t)) :
    ∃ n, ∀ fuel ≥ n, ∀ i, (ensureTypeImportedM fuel t m i).1 ≠ .hang ∧ (qualifyTypeOnlyM fuel t m i).1 ≠ .hang := by
  obtain ⟨n, hn⟩ := stops_of_ends {} hg (acc_of_not_cyclic hg hc) hs
  exact ⟨n, fun fuel hf i => ⟨(hn fuel hf true m i (.refl m)).1, (hn fuel hf false m i (.refl m)).1⟩⟩

/-- C57: EnsureAllTypesImported and QualifySignature return or panic for every signature that does not lead to a
cycle. -/
theorem C57_signatures_terminate_partial {m : Mem} (hg : m.Good) {p : Nat} {s : MSig} (hp : m.cells p = some (.sig s))
    (hs : m.Sound (.sig s)) (hc : ¬ m.Cyclic (.sig s)) :
    ∃ n, ∀ fuel ≥ n, ∀ i,
      (ensureAllTypesImportedM fuel p m i).1 ≠ .hang ∧ (qualifySignatureOnlyM fuel p m i).1 ≠ .hang := by
  obtain ⟨n, hn⟩ := stops_of_ends {} hg (acc_of_not_cyclic hg hc) hs
  exact ⟨n, fun fuel hf i =>
    ⟨(halts_qualifySignatureM (fun b => framed_qualifyTypeM b true fuel) (.refl m) (hn fuel hf true) hp (hg.lt hp) i).1,
      (halts_qualifySignatureM (fun b => framed_qualifyTypeM b false fuel) (.refl m) (hn fuel hf false) hp
        (hg.lt hp) i).1⟩⟩

/-- C57: EnsureTypeImported and QualifyType never return for a type that leads to a cycle. -/
theorem C57_never_return_for_cyclic_types {m : Mem} (hg : m.Good) {t : MType} (hc : m.Cyclic (.type t)) (fuel : Nat)
    (i : Imports) (t' : MType) :
    (ensureTypeImportedM fuel t m i).1 ≠ .ok t' ∧ (qualifyTypeOnlyM fuel t m i).1 ≠ .ok t' := by
  have key : ∀ r, (qualifyTypeM r fuel t m i).1 ≠ .ok t' := by
    intro r he
    rcases hq : qualifyTypeM r fuel t m i with ⟨o, m', j⟩
    rw [hq] at he
    cases he
    exact (ran_qualifyTypeM hg r fuel t m i (.refl m) _ _ _ hq).2.not_cyclic hc
  exact ⟨key true, key false⟩

/-- C57: EnsureAllTypesImported and QualifySignature never return for a signature that leads to a cycle. -/
theorem C57_never_return_for_cyclic_signatures {m : Mem} (hg : m.Good) {p : Nat} {s : MSig}
    (hp : m.cells p = some (.sig s)) (hc : m.Cyclic (.sig s)) (fuel : Nat) (i : Imports) (p' : Nat) :
    (ensureAllTypesImportedM fuel p m i).1 ≠ .ok p' ∧ (qualifySignatureOnlyM fuel p m i).1 ≠ .ok p' := by
  have key : ∀ r, (qualifySignatureM (qualifyTypeM r fuel) p m i).1 ≠ .ok p' := by
    intro r he
    rcases hq : qualifySignatureM (qualifyTypeM r fuel) p m i with ⟨o, m', j⟩
    rw [hq] at he
    cases he
    have := (ran_qualifySignatureM (ran_qualifyTypeM hg r fuel) (fun b => framed_qualifyTypeM b r fuel) (.refl m) hp
      (hg.lt hp) i _ _ _ hq).2
    exact (Mem.Ends.sig hg this).not_cyclic hc
  exact ⟨key true, key false⟩

/-- C57: types and signatures that are trees do not lead to cycles (nor to free addresses). -/
theorem C57_trees_have_no_cycles {m : Mem} (hg : m.Good) :
    (∀ t v, m.IsType t v → m.Sound (.type v) ∧ ¬ m.Cyclic (.type v)) ∧
    (∀ t s, Part.Sig m.cells t s → m.Sound (.sig s) ∧ ¬ m.Cyclic (.sig s)) :=
  ⟨fun t v h => ⟨(fine_type hg t v h).2, (fine_type hg t v h).1.not_cyclic⟩,
    fun t s h => ⟨(fine_sig hg t s h).2, (fine_sig hg t s h).1.not_cyclic⟩⟩

/-! ## A cycle -/

/-- Memory after `sig := &Signature{}; sig.AddArg("f", FuncTypeFromSig(sig))`. -/
def exSelf : Mem where
  cells := fun a =>
    if a = 0 then some (.sig ⟨⟨1, 0, 1⟩, ⟨0, 0, 0⟩, false⟩)
    else if a = 1 then some (.array [.arg (b! "f") (.func 0)])
    else none
  next := 2
  stores := []

theorem exSelf_good : exSelf.Good := by
  intro p hp
  have : 2 ≤ p := hp
  have h0 : p ≠ 0 := by omega
  have h1 : p ≠ 1 := by omega
  simp [exSelf, h0, h1]

theorem exSelf_cyclic : exSelf.Cyclic (.type (.func 0)) :=
  ⟨_, .refl, .tail (.single (.func rfl)) (.arg (n := b! "f") (.mk (l := [.arg (b! "f") (.func 0)]) (k := 0) rfl
    (by decide) rfl))⟩

theorem self_hangs (r : Bool) : ∀ (fuel : Nat) (m : Mem) (i : Imports), m.cells 0 = exSelf.cells 0 →
    m.cells 1 = exSelf.cells 1 → qualifyTypeM r fuel (.func 0) m i = (.hang, m, i)
  | 0, _, _, _, _ => rfl
  | fuel + 1, m, i, h0, h1 => by
    have ih := self_hangs r fuel m i h0 h1
    rw [qualifyTypeM]
    refine MM.bind_hang ?_
    rw [qualifySignatureM, MM.bind_ok (loadSig_of (s := ⟨⟨1, 0, 1⟩, ⟨0, 0, 0⟩, false⟩) (h0.trans rfl) i)]
    refine MM.bind_hang ?_
    rw [qualifyArgsM, rangeCopy]
    refine MM.bind_hang ?_
    show rangeLoop _ _ 1 0 none m i = _
    have hl : MM.loadElem ⟨1, 0, 1⟩ 0 m i = (.ok (.arg (b! "f") (.func 0)), m, i) := by
      have : m.cells 1 = some (.array [.arg (b! "f") (.func 0)]) := h1
      simp only [MM.loadElem, MM.loadSlice, MM.bind_apply]
      simp [this]
      rfl
    rw [rangeLoop, MM.bind_ok hl]
    refine MM.bind_hang ?_
    exact MM.bind_hang ih

/-- `sig := &Signature{}; t := FuncTypeFromSig(sig); sig.AddArg("f", t)` -/
def buildSelf (g : Growth) : MM MType := do
  let sig ← newSigM
  let t ← funcTypeFromSigM sig
  sigAddArgM g sig (b! "f") t
  pure t

/-- These calls lead to that memory. -/
example (i : Imports) : ∃ m, buildSelf (fun _ _ => 0) Mem.empty i = (.ok (.func 0), m, i) ∧
    m.cells 0 = exSelf.cells 0 ∧ m.cells 1 = exSelf.cells 1 ∧ m.next = exSelf.next :=
  ⟨_, rfl, rfl, rfl, rfl⟩

/-- C57 fails: a signature can get an argument whose type is made from the signature; then the functions do not
return. -/
theorem C57_full_fails_for_cycles : ¬ C57_full := by
  intro hall
  obtain ⟨n, hn⟩ := hall exSelf (.func 0) (newImportsFor (b! "x/p"))
  exact (hn n (Nat.le_refl n)).1 (by rw [ensureTypeImportedM, self_hangs true n exSelf _ rfl rfl])

/-- Data with that type in it leads to the same cycle, so that QualifyTemplateData does not return, either. -/
example (h : Heap) (fuel : Nat) (i : Imports) (v' : DVal) :
    (qualifyTemplateDataM h fuel (.struct [(true, .iface acceptsAll (.typeName (.func 0)))]) exSelf i).1 ≠ .ok v' := by
  obtain ⟨y, h1, h2⟩ := exSelf_cyclic
  exact C53_never_returns_for_cycles h exSelf_good
    ⟨y, .head .iface (.head (.field (e := true) (v := .iface acceptsAll (.typeName (.func 0)))
      (by simp)) (.head .typeName h1)), h2⟩ fuel i v'

/-- A type of the same kind without a cycle. -/
def exNested : Mem where
  cells := fun a =>
    if a = 0 then some (.sig ⟨⟨1, 0, 1⟩, ⟨0, 0, 0⟩, false⟩)
    else if a = 1 then some (.array [.arg (b! "f") (.ptr (.func 2))])
    else if a = 2 then some (.sig ⟨⟨0, 0, 0⟩, ⟨3, 0, 1⟩, false⟩)
    else if a = 3 then some (.array [.arg [] (.named 4)])
    else if a = 4 then some (.named ⟨⟨b! "y/a", b! "a"⟩, b! "T"⟩)
    else none
  next := 5
  stores := []

example : ∃ n, ∀ fuel ≥ n, ∀ i,
    (ensureTypeImportedM fuel (.func 0) exNested i).1 ≠ .hang ∧
    (qualifyTypeOnlyM fuel (.func 0) exNested i).1 ≠ .hang := by
  have hg : exNested.Good := by
    intro p hp
    have : 5 ≤ p := hp
    have h0 : p ≠ 0 := by omega
    have h1 : p ≠ 1 := by omega
    have h2 : p ≠ 2 := by omega
    have h3 : p ≠ 3 := by omega
    have h4 : p ≠ 4 := by omega
    simp [exNested, h0, h1, h2, h3, h4]
  have ht : exNested.IsType (.func ⟨[⟨b! "f", .ptr (.func ⟨[], [⟨[], .named ⟨⟨b! "y/a", b! "a"⟩, b! "T"⟩⟩], false⟩)⟩],
      [], false⟩) (.func 0) := by
    unfold Mem.IsType
    simp only [Part.Type, Part.Sig]
    refine ⟨_, rfl, rfl, [.arg (b! "f") (.ptr (.func 2))], [], rfl, ?_, rfl, by simp [Part.Args]⟩
    simp only [Part.Args, Part.Type, Part.Sig, and_true, true_and]
    exact ⟨_, rfl, rfl, [], [.arg [] (.named 4)], rfl, trivial, rfl, by simp [Part.Args, Part.Type, exNested]⟩
  have h := (C57_trees_have_no_cycles hg).1 _ _ ht
  exact C57_types_terminate_partial hg h.1 h.2

end Gopoet
