import Verif.Proof.MemorySim
import Verif.Proof.MemoryFlag
import Verif.Proof.DataLemmas
import Verif.Props.Imports
/-!
# C13: qualification does not write to existing memory and shares what does not change
-/

namespace Gopoet
open Imports MM

/-- The computation in memory `x` has the outcome of the computation with trees `y`. In any case no
memory that existed is changed. A result satisfies `P`. -/
def Agrees {α β : Type} (x : MM β) (y : IM α) (m : Mem) (i : Imports) (P : Mem → α → β → Prop) : Prop :=
  m.Untouched (x m i).2.1 ∧ (x m i).2.2 = (y i).2 ∧
  match (y i).1 with
  | .ok a => ∃ b, (x m i).1 = .ok b ∧ P (x m i).2.1 a b
  | .panic => (x m i).1 = .panic
  | .hang => (x m i).1 = .hang

theorem Mem.Good.at {m : Mem} (h : m.Good) : At m.cells m := by
  refine ⟨.refl _, fun p c hp => ?_⟩
  by_cases hlt : p < m.next
  · exact hlt
  · rw [h p (by omega)] at hp
    cases hp

/-- What existed is still there. -/
theorem Mem.Untouched.le {m m' : Mem} (h : m.Untouched m') (hg : m.Good) : Part.Le m.cells m'.cells :=
  fun p c hp => ⟨c, (h.2.1 p (hg.at.lt p c hp)).trans hp, .refl c⟩

theorem agrees_of_sim {α β : Type} {x : MM β} {y : IM (α × Bool)} {m : Mem} {i : Imports}
    {Q : α × Bool → β → Part → Mem → Prop} {P : Mem → α → β → Prop} (hx : ∀ b, Framed b x fun _ => True)
    (h : Sim noAddr x y i m.cells m Q)
    (hPQ : ∀ a b h' m', MStep noAddr m.cells m h' m' → (∃ j, y i = (.ok a, j)) → Q a b h' m' → P m' a.1 b) :
    Agrees x (y >>= fun a => pure a.1) m i P := by
  have hu := Framed.untouched hx m i
  unfold Sim at h
  unfold Agrees
  rw [IM.bind_apply]
  rcases hy : y i with ⟨a | _ | _, i'⟩
  · rw [hy] at h
    obtain ⟨b, h', m', e, st, q⟩ := h
    rw [e] at hu ⊢
    exact ⟨hu, rfl, b, rfl, hPQ a b h' m' st ⟨_, hy⟩ q⟩
  · rw [hy] at h
    obtain ⟨m', e⟩ := h
    rw [e] at hu ⊢
    exact ⟨hu, rfl, rfl⟩
  · rw [hy] at h
    obtain ⟨m', e⟩ := h
    rw [e] at hu ⊢
    exact ⟨hu, rfl, rfl⟩

/-! ## Nothing is written -/

/-- C13: EnsureTypeImported writes no memory that exists when it is called: for every memory (with any
sharing, even cycles), every value and however far it gets. -/
theorem C13_no_writes (fuel : Nat) (v : MType) (m : Mem) (i : Imports) :
    m.Untouched (ensureTypeImportedM fuel v m i).2.1 :=
  Framed.untouched (fun b => framed_qualifyTypeM b true fuel v) m i

/-- C13: EnsureAllTypesImported writes no memory that exists when it is called. -/
theorem C13_no_writes_signature (fuel p : Nat) (m : Mem) (i : Imports) :
    m.Untouched (ensureAllTypesImportedM fuel p m i).2.1 :=
  Framed.untouched (fun b => framed_qualifySignatureM (framed_qualifyTypeM b true fuel) p) m i

/-- The same for QualifyType. -/
theorem C13_no_writes_qualify (fuel : Nat) (v : MType) (m : Mem) (i : Imports) :
    m.Untouched (qualifyTypeOnlyM fuel v m i).2.1 :=
  Framed.untouched (fun b => framed_qualifyTypeM b false fuel v) m i

/-- The same for QualifySignature. -/
theorem C13_no_writes_qualify_signature (fuel p : Nat) (m : Mem) (i : Imports) :
    m.Untouched (qualifySignatureOnlyM fuel p m i).2.1 :=
  Framed.untouched (fun b => framed_qualifySignatureM (framed_qualifyTypeM b false fuel) p) m i

/-- C13: every type that is in memory, whether it is the argument, shares memory with the argument or has
nothing to do with it, is the same type afterwards. -/
theorem C13_values_keep {m : Mem} (hg : m.Good) {t : TypeName} {w : MType} (hw : m.IsType t w)
    (fuel : Nat) (v : MType) (i : Imports) : (ensureTypeImportedM fuel v m i).2.1.IsType t w :=
  Part.Type.mono ((C13_no_writes fuel v m i).le hg) t w hw

/-- C13: every signature that is in memory is the same signature afterwards. -/
theorem C13_signatures_keep {m : Mem} (hg : m.Good) {t : Signature} {w : Nat} (hw : m.IsSig t w)
    (fuel p : Nat) (i : Imports) : (ensureAllTypesImportedM fuel p m i).2.1.IsSig t w := by
  obtain ⟨s, h1, h2⟩ := hw
  have le := (C13_no_writes_signature fuel p m i).le hg
  exact ⟨s, le.get h1, h2.mono le _ _⟩

/-! ## The same value is returned -/

theorem agrees_type (r : Bool) {m : Mem} (hg : m.Good) {t : TypeName} {v : MType} (ht : m.IsType t v) (i : Imports) :
    ∃ n, ∀ fuel ≥ n, Agrees (qualifyTypeM r fuel v) (qualifyType r t >>= fun a => pure a.1) m i
      fun m' t' v' => m'.IsType t' v' ∧ (v' = v ↔ t' = t) := by
  refine ⟨sizeOf t + 1, fun fuel hf => agrees_of_sim (fun b => framed_qualifyTypeM b r fuel v)
    (sim_qualifyTypeM r fuel t hf v _ _ i hg.at ht) ?_⟩
  rintro ⟨t', c⟩ v' h' m' st ⟨j, hj⟩ ⟨h1, h2⟩
  exact ⟨Part.Type.mono st.after.le _ _ h1, h2.trans (qualifyType_flag r t hj)⟩

theorem agrees_signature (r : Bool) {m : Mem} (hg : m.Good) {sig : Signature} {p : Nat} (ht : m.IsSig sig p)
    (i : Imports) :
    ∃ n, ∀ fuel ≥ n, Agrees (qualifySignatureM (qualifyTypeM r fuel) p)
      (qualifySignature r sig >>= fun a => pure a.1) m i
      fun m' sig' p' => m'.IsSig sig' p' ∧ (p' = p ↔ sig' = sig) := by
  obtain ⟨s, h1, h2⟩ := ht
  refine ⟨sizeOf sig + 1, fun fuel hf => agrees_of_sim
    (fun b => framed_qualifySignatureM (framed_qualifyTypeM b r fuel) p)
    (sim_qualifySignatureM
      (fun x hx => sim_qualifyTypeM r fuel _ (by
        have := sizeOf_arg hx
        have := sizeOf_sig_args sig
        omega))
      (fun x hx => sim_qualifyTypeM r fuel _ (by
        have := sizeOf_arg hx
        have := sizeOf_sig_results sig
        omega)) hg.at h1 (hg.at.lt _ _ h1) h2) ?_⟩
  rintro ⟨sig', c⟩ p' h' m' st ⟨j, hj⟩ hc
  have hfl := qualifySignature_flag r sig hj
  dsimp only at hc hfl
  rcases hc with ⟨rfl, rfl, h3⟩ | ⟨h3, rfl, s', h4, h5⟩
  · exact ⟨⟨s, st.after.le.get (st.le.get h1), h3.mono st.after.le _ _⟩, by simpa using hfl⟩
  · exact ⟨⟨s', st.after.le.get h4, h5.mono st.after.le _ _⟩, by simpa [h3] using hfl⟩

/-- C13: EnsureTypeImported, called on the type `t` in memory, computes what the model on trees says
(with enough fuel: it returns), and the value it returns is identical to its argument exactly if it is the
same type. -/
theorem C13_identical_iff_equal {m : Mem} (hg : m.Good) {t : TypeName} {v : MType} (ht : m.IsType t v)
    (i : Imports) :
    ∃ n, ∀ fuel ≥ n, Agrees (ensureTypeImportedM fuel v) (ensureTypeImported t) m i
      fun m' t' v' => m'.IsType t' v' ∧ (v' = v ↔ t' = t) := agrees_type true hg ht i

/-- C13 for EnsureAllTypesImported: the pointer is the same exactly if the signature is. -/
theorem C13_identical_iff_equal_signature {m : Mem} (hg : m.Good) {sig : Signature} {p : Nat}
    (ht : m.IsSig sig p) (i : Imports) :
    ∃ n, ∀ fuel ≥ n, Agrees (ensureAllTypesImportedM fuel p) (ensureAllTypesImported sig) m i
      fun m' sig' p' => m'.IsSig sig' p' ∧ (p' = p ↔ sig' = sig) := agrees_signature true hg ht i

/-- C13: EnsureTypeImported returns the identical value exactly if no symbol of the type needs another
package name (in the resulting Imports). -/
theorem C13_identical_iff_settled {m : Mem} (hg : m.Good) {t : TypeName} (hv : t.valid = true) {v : MType}
    (ht : m.IsType t v) (i : Imports) :
    ∃ n, ∀ fuel ≥ n, ∃ v' m' j, ensureTypeImportedM fuel v m i = (.ok v', m', j) ∧
      (v' = v ↔ ∀ s ∈ t.symbols, ensureImported s j = (.ok s, j)) := by
  obtain ⟨f, j, e, hf⟩ := C10_only_symbols_change (i := i) hv
  obtain ⟨n, hn⟩ := C13_identical_iff_equal hg ht i
  refine ⟨n, fun fuel hfuel => ?_⟩
  obtain ⟨-, h2, h3⟩ := hn fuel hfuel
  rw [e] at h2 h3
  obtain ⟨v', h4, -, h5⟩ := h3
  refine ⟨v', (ensureTypeImportedM fuel v m i).2.1, j, ?_, h5.trans ⟨fun h s hs => ?_, fun h => ?_⟩⟩
  · exact Prod.ext h4 (Prod.ext rfl h2)
  · have h' := symbols_mapSymbols f t
    rw [h] at h'
    rw [hf s hs, map_eq_self.1 h'.symm s hs]
  · refine mapSymbols_eq_self t fun s hs => ?_
    have := (hf s hs).symm.trans (h s hs)
    simpa using this

/-- C13 for EnsureAllTypesImported. -/
theorem C13_identical_iff_settled_signature {m : Mem} (hg : m.Good) {sig : Signature} (hv : sig.valid = true)
    {p : Nat} (ht : m.IsSig sig p) (i : Imports) :
    ∃ n, ∀ fuel ≥ n, ∃ p' m' j, ensureAllTypesImportedM fuel p m i = (.ok p', m', j) ∧
      (p' = p ↔ ∀ s ∈ sig.symbols, ensureImported s j = (.ok s, j)) := by
  obtain ⟨f, j, e, hf⟩ := C10_only_symbols_change_signature (i := i) hv
  obtain ⟨n, hn⟩ := C13_identical_iff_equal_signature hg ht i
  refine ⟨n, fun fuel hfuel => ?_⟩
  obtain ⟨-, h2, h3⟩ := hn fuel hfuel
  rw [e] at h2 h3
  obtain ⟨v', h4, -, h5⟩ := h3
  refine ⟨v', (ensureAllTypesImportedM fuel p m i).2.1, j, ?_, h5.trans ⟨fun h s hs => ?_, fun h => ?_⟩⟩
  · exact Prod.ext h4 (Prod.ext rfl h2)
  · have h' := symbols_mapSymbols_sig f sig
    rw [h] at h'
    rw [hf s hs, map_eq_self.1 h'.symm s hs]
  · refine mapSymbols_eq_self_sig sig fun s hs => ?_
    have := (hf s hs).symm.trans (h s hs)
    simpa using this

/-! ## Examples -/

/-- Memory with the given contents. -/
def memOf (l : List Cell) : Mem := ⟨fun p => l[p]?, l.length, []⟩

theorem good_memOf (l : List Cell) : (memOf l).Good := fun p hp => by
  simpa [memOf] using hp

/-- A signature whose arguments and results overlap in one array: `func(x Bar, y Baz) (y Baz)`. -/
def exMem : Mem := memOf
  [.named exSymA, .named exSymB, .array [.arg (b! "x") (.named 0), .arg (b! "y") (.named 1)],
    .sig ⟨⟨2, 0, 2⟩, ⟨2, 1, 1⟩, false⟩]

/-- The signature. -/
def exMemSig : Signature :=
  ⟨[⟨b! "x", .named exSymA⟩, ⟨b! "y", .named exSymB⟩], [⟨b! "y", .named exSymB⟩], false⟩

example : exMem.Good := good_memOf _
example : exMem.IsSig exMemSig 3 := ⟨_, rfl, by
  rw [exMemSig, Part.Sig]
  refine ⟨rfl, _, _, rfl, ?_, rfl, ?_⟩ <;> simp [Part.Args, Part.Type, exMem, memOf]⟩

/- `Baz` gets the package name `foo2`. The new signature is at address 8; its arguments are in the new array
at 5, its results in the new array at 7. The stores go to these arrays, which did not exist before. -/
example : (ensureAllTypesImportedM 3 3 exMem exState).1 = .ok 8 := by decide
example : (ensureAllTypesImportedM 3 3 exMem exState).2.1.stores = [7, 5] := by decide
example : (ensureAllTypesImportedM 3 3 exMem exState).2.1.cells 8 =
    some (.sig ⟨⟨5, 0, 2⟩, ⟨7, 0, 1⟩, false⟩) := rfl
example : (ensureAllTypesImportedM 3 3 exMem exState).2.1.cells 5 =
    some (.array [.arg (b! "x") (.named 0), .arg (b! "y") (.named 4)]) := rfl
example : (ensureAllTypesImportedM 3 3 exMem exState).2.1.cells 2 =
    some (.array [.arg (b! "x") (.named 0), .arg (b! "y") (.named 1)]) := rfl

/- A pointer to `Bar`, which keeps its name, is returned as it is, a pointer to `Baz` is not. -/
example : (ensureTypeImportedM 3 (.ptr (.named 0)) exMem exState).1 = .ok (.ptr (.named 0)) := by decide
example : (ensureTypeImportedM 3 (.ptr (.named 1)) exMem exState).1 = .ok (.ptr (.named 4)) := by decide

/- A signature that has itself as the type of its argument is not a tree: Go does not return. -/
example : (ensureAllTypesImportedM 9 0 (memOf [.sig ⟨⟨1, 0, 1⟩, ⟨0, 0, 0⟩, false⟩,
    .array [.arg (b! "x") (.func 0)]]) exState).1 = .hang := by decide

end Gopoet
