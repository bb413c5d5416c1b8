import Verif.Proof.SigRuns
import Verif.Props.Memory
/-!
# C54: signatures and types behave like values

Where this is so, the models with signatures and types as trees (`Verif.Model.Types`, `Verif.Model.Heap`) tell what
programs observe. It is not so for all programs: see below.
-/

namespace Gopoet
open Imports MM

/-- A program that starts with nothing does in memory what it does with values: it has the same outcome and the
same imports, and in the end signatures and types are the same. -/
def ActsOnValues (g : Growth) (fuel : Nat) (cmds : List SigCmd) (i : Imports) : Prop :=
  (runSigM g fuel {} cmds Mem.empty i).2.2 = (runSigV {} cmds i).2 ∧
  match (runSigV {} cmds i).1 with
  | .ok v => ∃ r, (runSigM g fuel {} cmds Mem.empty i).1 = .ok r ∧ r.Are (runSigM g fuel {} cmds Mem.empty i).2.1 v
  | .panic => (runSigM g fuel {} cmds Mem.empty i).1 = .panic
  | .hang => (runSigM g fuel {} cmds Mem.empty i).1 = .hang

/-- C54, as stated: for all programs. -/
def C54_full : Prop := ∀ (g : Growth) (cmds : List SigCmd) (i : Imports),
  ∃ n, ∀ fuel, n ≤ fuel → ActsOnValues g fuel cmds i

/-- C54 for programs that leave a signature alone once `FuncTypeFromSig` or `ToTypeName` made the type of a function of
it (or it was got from a type), and add something to a list of arguments or results at most once: of copies of a
signature, only one may get more arguments, unless there are none yet. Missing: the other programs, for some of which it
is not true. -/
theorem C54_values_partial (cmds : List SigCmd) (hd : orderly cmds = true) (i : Imports) :
    ∃ n, ∀ fuel, n ≤ fuel → ∀ g : Growth, ActsOnValues g fuel cmds i := by
  obtain ⟨n, hn⟩ := follows_run cmds {} i
  refine ⟨n, fun fuel hf g => ?_⟩
  obtain ⟨p, hp⟩ := Option.isSome_iff_exists.1 hd
  have fl := hn fuel hf g {} Mem.empty _ _ {} p stands_empty Nat.one_pos hp
  unfold Keeps at fl
  unfold ActsOnValues
  rcases hy : runSigV {} cmds i with ⟨v | _ | _, j⟩
  · rw [hy] at fl
    obtain ⟨r, h, ids, m, e, st⟩ := fl
    rw [e]
    exact ⟨rfl, r, rfl, st.are⟩
  · rw [hy] at fl
    obtain ⟨m, e⟩ := fl
    rw [e]
    exact ⟨rfl, rfl⟩
  · rw [hy] at fl
    obtain ⟨m, e⟩ := fl
    rw [e]
    exact ⟨rfl, rfl⟩

/-- C54 for programs for which this is more easily seen: they make no copies of signatures, do not ask types for their
signature, and leave a signature alone once `FuncTypeFromSig` or `ToTypeName` made the type of a function of it. -/
theorem C54_plain_partial (cmds : List SigCmd) (hd : disciplined [] cmds = true) (i : Imports) :
    ∃ n, ∀ fuel, n ≤ fuel → ∀ g : Growth, ActsOnValues g fuel cmds i :=
  C54_values_partial cmds (orderly_of_disciplined cmds hd) i

theorem orderly_left (cs cs' : List SigCmd) (h : orderly (cs ++ cs') = true) : orderly cs = true := by
  have : ∀ (cs : List SigCmd) (p : SigPlan), (p.run (cs ++ cs')).isSome = true → (p.run cs).isSome = true := by
    intro cs
    induction cs with
    | nil => exact fun _ _ => rfl
    | cons c cs ih =>
      intro p h
      rw [List.cons_append, SigPlan.run] at h
      rw [SigPlan.run]
      cases hc : p.step c with
      | none =>
        rw [hc] at h
        cases h
      | some p1 =>
        rw [hc] at h
        exact ih p1 h
  exact this cs {} h

theorem runSigV_append : ∀ (cs cs' : List SigCmd) (v : SigVals) (i : Imports) {v1 : SigVals} {i1 : Imports},
    runSigV v cs i = (.ok v1, i1) → runSigV v (cs ++ cs') i = runSigV v1 cs' i1
  | [], cs', v, i, v1, i1, h => by
    cases h
    rfl
  | c :: cs, cs', v, i, v1, i1, h => by
    obtain ⟨v2, i2, h1, h2⟩ := IM.bind_eq_ok h
    rw [List.cons_append, runSigV, IM.bind_apply, h1]
    exact runSigV_append cs cs' v2 i2 h2

theorem runSigM_append (g : Growth) (fuel : Nat) : ∀ (cs cs' : List SigCmd) (r : SigRefs) (m : Mem) (i : Imports)
    {r1 : SigRefs} {m1 : Mem} {i1 : Imports},
    runSigM g fuel r cs m i = (.ok r1, m1, i1) → runSigM g fuel r (cs ++ cs') m i = runSigM g fuel r1 cs' m1 i1
  | [], cs', r, m, i, r1, m1, i1, h => by
    cases h
    rfl
  | c :: cs, cs', r, m, i, r1, m1, i1, h => by
    rw [runSigM, MM.bind_apply] at h
    rw [List.cons_append, runSigM, MM.bind_apply]
    rcases hc : c.execM g fuel r m i with ⟨r2 | _ | _, m2, i2⟩
    · rw [hc] at h
      exact runSigM_append g fuel cs cs' r2 m2 i2 h
    · rw [hc] at h
      cases h
    · rw [hc] at h
      cases h

theorem execM_types (g : Growth) (fuel : Nat) (c : SigCmd) {r r' : SigRefs} {m m' : Mem} {i i' : Imports}
    (h : c.execM g fuel r m i = (.ok r', m', i')) : ∃ l, r'.types = r.types ++ l := by
  have bind : ∀ {α : Type} {x : MM α} {f : α → MM SigRefs} {m : Mem} {i : Imports},
      (x >>= f) m i = (.ok r', m', i') → ∃ a m1 i1, f a m1 i1 = (.ok r', m', i') := by
    intro α x f m i h
    rw [MM.bind_apply] at h
    rcases hx : x m i with ⟨a | _ | _, m1, i1⟩
    · rw [hx] at h
      exact ⟨a, m1, i1, h⟩
    · rw [hx] at h
      cases h
    · rw [hx] at h
      cases h
  cases c <;> simp only [SigCmd.execM] at h <;>
    (repeat' (obtain ⟨_, _, _, h⟩ := bind h)) <;>
    first
    | (cases h; exact ⟨_, rfl⟩)
    | (cases h; exact ⟨[], by simp [SigRefs.addObj]⟩)
    | (split at h <;> cases h; exact ⟨[], by simp [SigRefs.addObj]⟩)

theorem runSigM_types (g : Growth) (fuel : Nat) : ∀ (cs : List SigCmd) (r : SigRefs) (m : Mem) (i : Imports)
    {r' : SigRefs} {m' : Mem} {i' : Imports}, runSigM g fuel r cs m i = (.ok r', m', i') →
    ∃ l, r'.types = r.types ++ l
  | [], r, m, i, r', m', i', h => by
    cases h
    exact ⟨[], by simp⟩
  | c :: cs, r, m, i, r', m', i', h => by
    rw [runSigM, MM.bind_apply] at h
    rcases hc : c.execM g fuel r m i with ⟨r2 | _ | _, m2, i2⟩
    · rw [hc] at h
      obtain ⟨l, hl⟩ := execM_types g fuel c hc
      obtain ⟨l', hl'⟩ := runSigM_types g fuel cs r2 m2 i2 h
      exact ⟨l ++ l', by rw [hl', hl, List.append_assoc]⟩
    · rw [hc] at h
      cases h
    · rw [hc] at h
      cases h

/-- C54: in such programs, the value which a variable of type `TypeName` holds is the same type ever after, whatever
the program does next. -/
theorem C54_types_keep_partial (cmds cmds' : List SigCmd) (hd : orderly (cmds ++ cmds') = true) (i : Imports)
    (v' : SigVals) (j' : Imports) (hv : runSigV {} (cmds ++ cmds') i = (.ok v', j')) :
    ∃ n, ∀ fuel, n ≤ fuel → ∀ g : Growth, ∃ r m j r' m',
      runSigM g fuel {} cmds Mem.empty i = (.ok r, m, j) ∧ runSigM g fuel r cmds' m j = (.ok r', m', j') ∧
      ∀ (k : Nat) w, r.types[k]? = some w → r'.types[k]? = some w ∧ ∃ t, m.IsType t w ∧ m'.IsType t w := by
  obtain ⟨n1, hn1⟩ := C54_values_partial cmds (orderly_left cmds cmds' hd) i
  obtain ⟨n2, hn2⟩ := C54_values_partial (cmds ++ cmds') hd i
  have hok : ∃ v j, runSigV {} cmds i = (.ok v, j) := by
    have : ∀ (cs : List SigCmd) (v : SigVals) (i : Imports), runSigV v (cs ++ cmds') i = (.ok v', j') →
        ∃ v1 j1, runSigV v cs i = (.ok v1, j1) := by
      intro cs
      induction cs with
      | nil => exact fun v i _ => ⟨v, i, rfl⟩
      | cons c cs ih =>
        intro v i h
        obtain ⟨v2, i2, h1, h2⟩ := IM.bind_eq_ok h
        obtain ⟨v1, j1, h3⟩ := ih v2 i2 h2
        exact ⟨v1, j1, by rw [runSigV, IM.bind_apply, h1]; exact h3⟩
    exact this cmds {} i hv
  obtain ⟨v, j, hv1⟩ := hok
  rw [runSigV_append cmds cmds' {} i hv1] at hv
  obtain ⟨l, hl⟩ := runSigV_grows cmds' v j hv
  refine ⟨max n1 n2, fun fuel hf g => ?_⟩
  have a1 := hn1 fuel (by omega) g
  have a2 := hn2 fuel (by omega) g
  unfold ActsOnValues at a1 a2
  rw [hv1] at a1
  rw [runSigV_append cmds cmds' {} i hv1, hv] at a2
  rcases h1 : runSigM g fuel {} cmds Mem.empty i with ⟨r, m, j0⟩
  rw [h1] at a1
  obtain ⟨ej, r0, er, are⟩ := a1
  dsimp only at ej er are
  subst ej er
  rw [runSigM_append g fuel cmds cmds' {} Mem.empty i h1] at a2
  rcases h2 : runSigM g fuel r0 cmds' m j0 with ⟨r', m', j2⟩
  rw [h2] at a2
  obtain ⟨ej, r1, er, are'⟩ := a2
  dsimp only at ej er are'
  subst ej er
  obtain ⟨lw, hlw⟩ := runSigM_types g fuel cmds' r0 m j0 h2
  refine ⟨r0, m, j0, r1, m', rfl, h2, fun k w hw => ?_⟩
  obtain ⟨hk, -⟩ := List.getElem?_eq_some_iff.1 hw
  have hw' : r1.types[k]? = some w := by rw [hlw, List.getElem?_append_left hk, hw]
  refine ⟨hw', v.types[k]'(are.2.1 ▸ hk), ?_, ?_⟩
  · exact are.2.2.2 k w _ hw (List.getElem?_eq_getElem _)
  · refine are'.2.2.2 k w _ hw' ?_
    rw [hl, List.getElem?_append_left (are.2.1 ▸ hk)]
    exact List.getElem?_eq_getElem _

/-! ## What is not like values -/

/-- C54: the type that `ToTypeName` of a function without receiver (and `FuncTypeFromSig`) gives is, at any time
later, the type with the signature that the function has then. -/
theorem C54_function_type_follows (p : Nat) (pkg : Option Package) (m : Mem) (i : Imports) (w : MType)
    (m1 : Mem) (i1 : Imports) (h : funcToTypeNameM p none pkg m i = (.ok w, m1, i1)) (m' : Mem) (sig : Signature) :
    m'.IsType (.func sig) w ↔ m'.IsSig sig p := by
  have hw : w = .func p := by
    rw [show funcToTypeNameM p none pkg = funcTypeFromSigM p from rfl] at h
    unfold funcTypeFromSigM at h
    rw [MM.bind_apply] at h
    rcases h1 : loadSig p m i with ⟨s | _ | _, m2, i2⟩ <;> rw [h1] at h <;> try cases h
    dsimp only at h
    rw [MM.bind_apply] at h
    rcases h2 : loadSlice s.args m2 i2 with ⟨a | _ | _, m3, i3⟩ <;> rw [h2] at h <;> try cases h
    dsimp only at h
    rw [MM.bind_apply] at h
    rcases h3 : loadSlice s.results m3 i3 with ⟨b | _ | _, m4, i4⟩ <;> rw [h3] at h <;> try cases h
    dsimp only at h
    split at h
    · cases h
    split at h
    · cases h
    split at h
    · generalize a.getLast? = o at h
      rcases o with _ | (⟨n, _ | _ | _ | _ | _⟩ | _ | _ | _ | _) <;> cases h
      rfl
    · cases h
      rfl
  subst hw
  rw [Mem.IsType, Part.Type]
  rfl

/-- The names of the arguments of a signature in memory. -/
def argNames (m : Mem) (p : Nat) : Option (List GoString) :=
  match m.cells p with
  | some (.sig s) => (Part.elems m.cells s.args).map (·.map fun
      | .arg n _ => n
      | _ => [])
  | _ => none

theorem argNames_args {h : Part} : ∀ {args : List ArgType} {l : List Elem}, h.Args args l →
    (l.map fun | .arg n _ => n | _ => []) = args.map (·.name)
  | [], [], _ => rfl
  | [], _ :: _, h => by simp [Part.Args] at h
  | _ :: _, [], h => by simp [Part.Args] at h
  | ⟨n, t⟩ :: args, .arg n' v :: l, h => by
    rw [Part.Args] at h
    rw [List.map_cons, List.map_cons, argNames_args h.2.2, h.1]
  | ⟨n, t⟩ :: args, .field .. :: l, h => by simp [Part.Args] at h
  | ⟨n, t⟩ :: args, .method .. :: l, h => by simp [Part.Args] at h
  | ⟨n, t⟩ :: args, .sym .. :: l, h => by simp [Part.Args] at h
  | ⟨n, t⟩ :: args, .data .. :: l, h => by simp [Part.Args] at h

theorem argNames_of {m : Mem} {sig : Signature} {p : Nat} (h : m.IsSig sig p) :
    argNames m p = some (sig.args.map (·.name)) := by
  obtain ⟨s, h1, h2⟩ := h
  obtain ⟨args, results, v⟩ := sig
  rw [Part.Sig] at h2
  obtain ⟨-, l, l', h3, h4, -⟩ := h2
  rw [argNames, h1]
  dsimp only
  rw [h3, Option.map_some, argNames_args h4]

/-- What can be seen of a run in memory: the argument names of the signatures, and of the types that are functions. -/
def seenM (x : Outcome SigRefs × Mem × Imports) : Option (List (Option (List GoString)) × List (Option (List GoString))) :=
  match x.1 with
  | .ok r => some (r.objs.map (argNames x.2.1), r.types.map fun
      | .func p => argNames x.2.1 p
      | _ => none)
  | _ => none

/-- The same of a run with values. -/
def seenV (x : Outcome SigVals × Imports) : Option (List (Option (List GoString)) × List (Option (List GoString))) :=
  match x.1 with
  | .ok v => some (v.sigs.map fun s => some (s.args.map (·.name)), v.types.map fun
      | .func s => some (s.args.map (·.name))
      | _ => none)
  | _ => none

theorem seen_of {g : Growth} {fuel : Nat} {cmds : List SigCmd} {i : Imports} (h : ActsOnValues g fuel cmds i) :
    seenM (runSigM g fuel {} cmds Mem.empty i) = seenV (runSigV {} cmds i) := by
  obtain ⟨-, h⟩ := h
  unfold seenM seenV
  cases hy : (runSigV {} cmds i).1 with
  | ok v =>
    rw [hy] at h
    obtain ⟨r, e, h1, h2, h3, h4⟩ := h
    rw [e]
    dsimp only
    congr 2
    · refine List.ext_getElem? fun k => ?_
      rw [List.getElem?_map, List.getElem?_map]
      cases hr : r.objs[k]? with
      | none =>
        have : v.sigs[k]? = none := by
          rw [List.getElem?_eq_none_iff] at hr ⊢
          omega
        rw [this]
        rfl
      | some p =>
        have hk := (List.getElem?_eq_some_iff.1 hr).1
        have hs : v.sigs[k]? = some (v.sigs[k]'(h1 ▸ hk)) := List.getElem?_eq_getElem _
        rw [hs, Option.map_some, Option.map_some, argNames_of (h3 k p _ hr hs)]
    · refine List.ext_getElem? fun k => ?_
      rw [List.getElem?_map, List.getElem?_map]
      cases hr : r.types[k]? with
      | none =>
        have : v.types[k]? = none := by
          rw [List.getElem?_eq_none_iff] at hr ⊢
          omega
        rw [this]
        rfl
      | some w =>
        have hk := (List.getElem?_eq_some_iff.1 hr).1
        have hs : v.types[k]? = some (v.types[k]'(h2 ▸ hk)) := List.getElem?_eq_getElem _
        rw [hs, Option.map_some, Option.map_some]
        have ht := h4 k w _ hr hs
        generalize v.types[k]'(h2 ▸ hk) = t at ht
        congr 1
        unfold Mem.IsType at ht
        cases t <;> cases w <;> simp only [Part.Type] at ht ⊢
        exact argNames_of ht
  | panic =>
    rw [hy] at h
    rw [h]
  | hang =>
    rw [hy] at h
    rw [h]

theorem not_full_of {g : Growth} {cmds : List SigCmd} {i : Imports}
    (h : ∀ fuel, seenM (runSigM g fuel {} cmds Mem.empty i) ≠ seenV (runSigV {} cmds i)) : ¬ C54_full := fun hf => by
  obtain ⟨n, hn⟩ := hf g cmds i
  exact h n (seen_of (hn n (Nat.le_refl n)))

/-- The type of a function is taken, then the function gets an argument. -/
def exTypeFirst : List SigCmd := [.new, .basicType .int, .funcType 0, .addArg 0 (b! "x") 0]

/-- C54: the type that was taken before has the argument, too. -/
theorem C54_full_fails_for_function_types : ¬ C54_full :=
  not_full_of (g := fun _ _ => 0) (cmds := exTypeFirst) (i := newImportsFor (b! "x/p")) fun fuel => by
    have : seenM (runSigM (fun _ _ => 0) fuel {} exTypeFirst Mem.empty (newImportsFor (b! "x/p"))) =
        some ([some [b! "x"]], [none, some [b! "x"]]) := by rfl
    rw [this]
    have : seenV (runSigV {} exTypeFirst (newImportsFor (b! "x/p"))) = some ([some [b! "x"]], [none, some []]) := by rfl
    rw [this]
    decide

/-- A signature is copied and both get one more argument. -/
def exCopied : List SigCmd :=
  [.new, .basicType .int, .addArg 0 (b! "a") 0, .copy 0, .addArg 0 (b! "x") 0, .addArg 1 (b! "y") 0]

/-- C54: with room in the array, the argument that the original got is overwritten. -/
theorem C54_full_fails_for_copies : ¬ C54_full :=
  not_full_of (g := fun _ _ => 1) (cmds := exCopied) (i := newImportsFor (b! "x/p")) fun fuel => by
    have : seenM (runSigM (fun _ _ => 1) fuel {} exCopied Mem.empty (newImportsFor (b! "x/p"))) =
        some ([some [b! "a", b! "y"], some [b! "a", b! "y"]], [none]) := by rfl
    rw [this]
    have : seenV (runSigV {} exCopied (newImportsFor (b! "x/p"))) =
        some ([some [b! "a", b! "x"], some [b! "a", b! "y"]], [none]) := by rfl
    rw [this]
    decide

/-- It depends on the room that append happens to leave: without any, copies are independent. -/
example : seenM (runSigM (fun _ _ => 0) 0 {} exCopied Mem.empty (newImportsFor (b! "x/p"))) =
    seenV (runSigV {} exCopied (newImportsFor (b! "x/p"))) := by rfl

/-- The signature of a type is asked for and gets one more argument. -/
def exAsked : List SigCmd := [.new, .basicType .int, .funcType 0, .sigOf 1, .addArg 1 (b! "y") 0]

/-- C54: the function and the type have that argument. -/
theorem C54_full_fails_for_signatures_of_types : ¬ C54_full :=
  not_full_of (g := fun _ _ => 0) (cmds := exAsked) (i := newImportsFor (b! "x/p")) fun fuel => by
    have : seenM (runSigM (fun _ _ => 0) fuel {} exAsked Mem.empty (newImportsFor (b! "x/p"))) =
        some ([some [b! "y"], some [b! "y"]], [none, some [b! "y"]]) := by rfl
    rw [this]
    have : seenV (runSigV {} exAsked (newImportsFor (b! "x/p"))) =
        some ([some [], some [b! "y"]], [none, some []]) := by rfl
    rw [this]
    decide

/-! ## Examples -/

/-- A method whose type is taken in between, an interface with its signature, a function whose type is taken at the
end: all that is allowed. -/
def exValues : List SigCmd :=
  [.new, .basicType .int, .addArg 0 (b! "a") 0, .methodType 0 ⟨b! "r", b! "T", true⟩ (some ⟨b! "x/p", b! "p"⟩),
   .interfaceType [(b! "M", 0)] [], .namedType ⟨⟨b! "z/a", b! "a"⟩, b! "U"⟩, .addArg 0 (b! "b") 3,
   .interfaceMethodType 0 2, .qualify 0, .addResult 0 [] 0, .funcType 0, .pointerType 5]

example : disciplined [] exValues = true ∧ orderly exValues = true := by decide

/-- What it does with values: types that were taken before do not change. -/
example : seenV (runSigV {} exValues (newImportsFor (b! "x/p"))) =
    some ([some [b! "a", b! "b"]],
      [none, some [b! "r", b! "a"], none, none, some [[], b! "a", b! "b"], some [b! "a", b! "b"], none]) := by
  decide +kernel

/-- In memory it does the same, however much room append makes. -/
example : ∃ n, ∀ fuel, n ≤ fuel → ∀ g : Growth, seenM (runSigM g fuel {} exValues Mem.empty (newImportsFor (b! "x/p"))) =
    some ([some [b! "a", b! "b"]],
      [none, some [b! "r", b! "a"], none, none, some [[], b! "a", b! "b"], some [b! "a", b! "b"], none]) := by
  obtain ⟨n, hn⟩ := C54_values_partial exValues (by decide) (newImportsFor (b! "x/p"))
  refine ⟨n, fun fuel hf g => (seen_of (hn fuel hf g)).trans ?_⟩
  decide +kernel

/-- The other three are not allowed. -/
example : [exTypeFirst, exCopied, exAsked].map orderly = [false, false, false] := by decide

/-- Copies of an empty signature, each of which gets an argument; a copy of one of these which gets one more; the
type of the other one, whose signature is asked for and copied, and the copy gets a result: all that is allowed. -/
def exCopies : List SigCmd :=
  [.new, .basicType .int, .copy 0, .addArg 0 (b! "a") 0, .addArg 1 (b! "b") 0, .copy 0, .addArg 2 (b! "c") 0,
   .funcType 1, .sigOf 1, .copy 3, .addArg 4 (b! "d") 0, .addResult 4 [] 0, .setVariadic 2 false, .funcType 4]

example : orderly exCopies = true ∧ disciplined [] exCopies = false := by decide

/-- In memory it does what it does with values, however much room append makes. -/
example : ∃ n, ∀ fuel, n ≤ fuel → ∀ g : Growth, seenM (runSigM g fuel {} exCopies Mem.empty (newImportsFor (b! "x/p"))) =
    some ([some [b! "a"], some [b! "b"], some [b! "a", b! "c"], some [b! "b"], some [b! "b", b! "d"]],
      [none, some [b! "b"], some [b! "b", b! "d"]]) := by
  obtain ⟨n, hn⟩ := C54_values_partial exCopies (by decide) (newImportsFor (b! "x/p"))
  refine ⟨n, fun fuel hf g => (seen_of (hn fuel hf g)).trans ?_⟩
  decide +kernel

/-- The package of the first argument of a function type. -/
def argPackage (m : Mem) : MType → Option Package
  | .func p => match m.cells p with
    | some (.sig s) => match Part.elems m.cells s.args with
      | some (.arg _ (.named q) :: _) => match m.cells q with
        | some (.named s) => some s.package
        | _ => none
      | _ => none
    | _ => none
  | _ => none

/-- Imports in which the name `a` is taken. -/
def exOther : Imports := (registerPackage ⟨b! "y/a", b! "a"⟩ (newImportsFor (b! "x/p"))).2

/-- A type that was taken of a function is changed when a file with the function is written: it refers to the package
by the name which this has in that file. -/
example : let x := runSigM (fun _ _ => 0) 9 {} [.new, .namedType ⟨⟨b! "z/a", b! "a"⟩, b! "U"⟩, .addArg 0 (b! "x") 0,
      .funcType 0, .qualify 0] Mem.empty exOther
    (match x.1 with
      | .ok r => r.types.map (argPackage x.2.1)
      | _ => []) = [none, some ⟨b! "z/a", b! "a1"⟩] := by decide +kernel

/-- C54: a new array that `append` makes has zero values behind the elements. -/
theorem C54_room (g : Growth) (s : Slice) (x : Elem) (m : Mem) (i : Imports) (s' : Slice) (m' : Mem) (i' : Imports)
    (h : appendElem g s x m i = (.ok s', m', i')) (hn : s'.arr ≠ s.arr) (hs : s.len ≠ 0 → ∃ l,
      m.cells s.arr = some (.array l) ∧ s.off + s.len ≤ l.length) :
    ∃ l, m'.cells s'.arr = some (.array l) ∧ s'.off = 0 ∧ l[s.len]? = some x ∧ s'.len = s.len + 1 ∧
      ∀ k, s'.len ≤ k → ∀ e, l[k]? = some e → e = .arg [] .nil := by
  unfold appendElem at h
  split at h
  · rename_i h0
    rw [MM.bind_apply] at h
    cases h
    refine ⟨_, if_pos rfl, rfl, by rw [h0]; rfl, by rw [h0], fun k hk e he => ?_⟩
    obtain ⟨k, rfl⟩ : ∃ k', k = k' + 1 := ⟨k - 1, by have : 1 ≤ k := hk; omega⟩
    rw [List.getElem?_cons_succ] at he
    exact (List.mem_replicate.1 (List.mem_of_getElem? he)).2
  · rename_i h0
    obtain ⟨l, hl, hle⟩ := hs h0
    rw [MM.bind_apply] at h
    unfold MM.load at h
    rw [hl] at h
    dsimp only at h
    split at h
    · rw [MM.bind_apply] at h
      cases h
      exact absurd rfl hn
    · rw [MM.bind_apply] at h
      cases h
      have hlen : ((l.drop s.off).take s.len).length = s.len := by simp; omega
      refine ⟨_, if_pos rfl, rfl, ?_, rfl, fun k hk e he => ?_⟩
      · rw [List.getElem?_append_right (by omega), hlen, Nat.sub_self]; rfl
      · have hk' : s.len + 1 ≤ k := hk
        rw [List.getElem?_append_right (by omega), hlen] at he
        obtain ⟨j, hj⟩ : ∃ j, k - s.len = j + 1 := ⟨k - s.len - 1, by omega⟩
        rw [hj, List.getElem?_cons_succ] at he
        exact (List.mem_replicate.1 (List.mem_of_getElem? he)).2

/-- The memory of the example below. -/
def exRoom : Mem := ⟨fun a => if a = 5 then some (.array [.arg (b! "w") .nil, .arg (b! "x") .nil]) else none, 6, []⟩

/-- There is room for a third element in the new array. -/
example :
    (appendElem (fun _ _ => 1) ⟨5, 1, 1⟩ (.arg (b! "y") .nil) exRoom (newImportsFor (b! "x/p"))).1 = .ok ⟨6, 0, 2⟩ ∧
    (appendElem (fun _ _ => 1) ⟨5, 1, 1⟩ (.arg (b! "y") .nil) exRoom (newImportsFor (b! "x/p"))).2.1.cells 6 =
      some (.array [.arg (b! "x") .nil, .arg (b! "y") .nil, .arg [] .nil]) := ⟨rfl, rfl⟩

end Gopoet
