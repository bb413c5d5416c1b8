import Verif.Proof.ReceiverMemory
import Verif.Props.ProgramDocs
import Verif.Props.ProgramWritten
/-! # C80: receivers that methods share, or that are changed after methods were made -/

namespace Gopoet

theorem over_idle {fin : Ptr → Option ReceiverSpec} {h : Heap} (hf : ∀ p f, h.funcs p = some f → f.receiver = fin p) : over fin h = h := by
  have : (fun p => (h.funcs p).map fun f : FuncSpec => { f with receiver := fin p }) = h.funcs := by
    funext p
    cases hp : h.funcs p with
    | none => rfl
    | some f => rw [Option.map_some, ← hf p f hp]
  rw [over, this]

theorem over_newFunc (fin : Ptr → Option ReceiverSpec) (h : Heap) (r : Option ReceiverSpec) (n : GoString) :
    (newFunc (over fin h) (fin h.next) n).2 = over fin (newFunc h r n).2 :=
  (over_upd { h with next := h.next + 1 } h.next { name := n, receiver := r }).symm

theorem RecvHeap.seen_over (m : RecvHeap) : m.seen = over m.receiverAt m.heap := by
  rw [seen, over]
  congr 1
  funext p
  cases hp : m.heap.funcs p with
  | none => rfl
  | some f =>
    have : m.receiverAt p = m.receiver p f.receiver := by simp [receiverAt, seen, hp]
    rw [Option.map_some, Option.map_some, this]

theorem build_withReceivers (fin : Ptr → Option ReceiverSpec) : ∀ (cs : List RecvCall) {m m' : RecvHeap}, runRecv cs m = .ok m' →
    build (withReceivers fin cs m) (over fin m.heap) = .ok (over fin m'.heap)
  | [], m, m', hr => by cases hr; rfl
  | c :: cs, m, m', hr => by
    obtain ⟨g, h1, h2⟩ := bind_eq_ok hr
    have ih := build_withReceivers fin cs h2
    rw [withReceivers, h1]
    cases c with
    | call c =>
      obtain ⟨h', h3, h4⟩ := bind_eq_ok h1
      cases h4
      by_cases hc : ∃ r n, c = .newFunc r n
      · obtain ⟨r, n, rfl⟩ := hc
        cases h3
        show build (withReceivers fin cs _) (newFunc (over fin m.heap) (fin m.heap.next) n).2 = _
        rw [over_newFunc fin m.heap r n]
        exact ih
      · have e := exec_over (fin := fin) m.heap c fun r n h => hc ⟨r, n, h⟩
        rw [h3] at e
        have : ∀ l, build (c :: l) (over fin m.heap) = build l (over fin h') := by
          intro l
          rw [build, e]
          rfl
        cases c with
        | newFunc r n => exact absurd ⟨r, n, rfl⟩ hc
        | _ => exact (this _).trans ih
    | newReceiver r => cases h1; exact ih
    | change k r =>
      simp only [RecvCall.exec] at h1
      split at h1
      · cases h1; exact ih
      · cases h1
    | newMethod k n =>
      simp only [RecvCall.exec] at h1
      split at h1
      · cases h1
        show build (withReceivers fin cs _) (newFunc (over fin m.heap) (fin m.heap.next) n).2 = _
        rw [over_newFunc fin m.heap none n]
        exact ih
      · cases h1
    | assign f k =>
      simp only [RecvCall.exec] at h1
      split at h1
      · cases h1
      · split at h1
        · cases h1; exact ih
        · cases h1

/-- **C80** What a program with pointers to receivers makes is what the program makes that gives each method, when it is made, the
receiver that it has in the end. So all that is said of programs (C47 to C50, C78) is said of these, with such receivers. -/
theorem C80_in_the_end {cs : List RecvCall} {m : RecvHeap} (hr : runRecv cs {} = .ok m) :
    build (withReceivers m.receiverAt cs {}) {} = .ok m.seen := by
  have := build_withReceivers m.receiverAt cs hr
  rw [over_idle (h := ({} : RecvHeap).heap) (by intro p f h; cases h)] at this
  rw [m.seen_over]
  exact this

/-- **C80** For instance, the files that a program with pointers to receivers says (C78), with the receivers of the end, can be written,
and the text declares just that. -/
theorem C80_written {realName : GoString → GoString} {env : Env} {K : KnownTemplates env} {cs : List RecvCall} {m : RecvHeap} {p : Ptr}
    {own pkg : GoString} {others : List Declared} {Ms : List DeclMeaning} (hr : runRecv cs {} = .ok m)
    (hs : SaysFile (packageScope own (Declared.names (others ++ declaredBy Ms))) (withReceivers m.receiverAt cs {}) p pkg Ms)
    (hp : Proper realName own (Declared.names (others ++ declaredBy Ms) ++ predeclaredNames ++ [b! "init"])
      (withReceivers m.receiverAt cs {}))
    (hc : CodeSays K m.seen own (withReceivers m.receiverAt cs {})) (hsn : Sensible (withReceivers m.receiverAt cs {}))
    (hid : isIdent pkg = true) (hoid : ∀ n ∈ Declared.names others, isIdent n = true)
    (hn : (others ++ declaredBy Ms).Nodup) (hi : .name (b! "init") ∉ declaredBy Ms) :
    ∃ fuel text h' src, renderFile env fuel p m.seen = (.ok text, h') ∧ parseGoFile text = some src ∧ src.package = pkg ∧
      src.declared = declaredBy Ms ∧ src.LegalNames others realName ∧
      src.meaning own (Declared.names (others ++ declaredBy Ms)) realName = some Ms := by
  obtain ⟨fuel, text, h', src, h1, h2, h3, h4, h5, h6, -⟩ := C78_written (C80_in_the_end hr) hs hp hc hsn hid hoid hn hi
  exact ⟨fuel, text, h', src, h1, h2, h3, h4, h5, h6⟩

/-- What holds for the memory that programs make. -/
structure RecvHeap.Fine (m : RecvHeap) : Prop where
  fresh : m.heap.Fresh
  refs : ∀ p, m.refs p ≠ none → m.heap.funcs p ≠ none
  recvs : ∀ p k, m.refs p = some (some k) → k < m.recvs.length

theorem RecvHeap.Fine.empty : ({} : RecvHeap).Fine := ⟨Heap.fresh_empty, by intro p h; exact absurd rfl h, by intro p k h; cases h⟩

theorem RecvHeap.Fine.lt {m : RecvHeap} (a : m.Fine) {p : Ptr} (h : m.refs p ≠ none) : p < m.heap.next :=
  Nat.lt_of_not_le fun hle => a.refs p h (a.fresh.funcs p hle)

theorem RecvHeap.Fine.step {c : RecvCall} {m m' : RecvHeap} (a : m.Fine) (hc : c.exec m = .ok m') : m'.Fine := by
  cases c with
  | call c =>
    obtain ⟨h', h3, h4⟩ := bind_eq_ok hc
    cases h4
    have s := BuildCall.step a.fresh h3
    refine ⟨s.fresh, fun p hp => ?_, a.recvs⟩
    cases hf : m.heap.funcs p with
    | none => exact absurd hf (a.refs p hp)
    | some f =>
      obtain ⟨_, _, h1, _⟩ := s.funcs p f hf
      intro h
      rw [h] at h1
      cases h1
  | newReceiver r =>
    cases hc
    exact ⟨a.fresh, a.refs, fun p k h => by
      have := a.recvs p k h
      show k < (m.recvs ++ [r]).length
      simp; omega⟩
  | change k r =>
    simp only [RecvCall.exec] at hc
    split at hc
    · cases hc
      exact ⟨a.fresh, a.refs, fun p k h => by simpa using a.recvs p k h⟩
    · cases hc
  | newMethod k n =>
    simp only [RecvCall.exec] at hc
    split at hc
    · rename_i hk
      cases hc
      have s := BuildCall.step (c := .newFunc none n) a.fresh rfl
      refine ⟨s.fresh, fun p hp => ?_, fun p j h => ?_⟩
      · show upd m.heap.funcs m.heap.next _ p ≠ none
        simp only [upd] at hp ⊢
        split
        · simp
        · rename_i hne
          rw [if_neg hne] at hp
          exact a.refs p hp
      · simp only [upd] at h
        split at h
        · cases h; exact hk
        · exact a.recvs p j h
    · cases hc
  | assign f k =>
    simp only [RecvCall.exec] at hc
    split at hc
    · cases hc
    · rename_i g hg
      split at hc
      · rename_i hk
        cases hc
        refine ⟨a.fresh, fun p hp => ?_, fun p j h => ?_⟩
        · simp only [upd] at hp
          split at hp
          · rename_i e; subst e; show m.heap.funcs p ≠ none; rw [hg]; simp
          · exact a.refs p hp
        · simp only [upd] at h
          split at h
          · cases h; exact hk j rfl
          · exact a.recvs p j h
      · cases hc

theorem RecvHeap.Fine.run : ∀ {cs : List RecvCall} {m m' : RecvHeap}, m.Fine → runRecv cs m = .ok m' → m'.Fine
  | [], _, _, a, hr => by cases hr; exact a
  | _ :: _, _, _, a, hr => by
    obtain ⟨g, h1, h2⟩ := bind_eq_ok hr
    exact (a.step h1).run h2

/-- A call does not change the receivers in the heap. -/
theorem exec_receiver {c : BuildCall} {h h' : Heap} (hc : c.exec h = .ok h') (hn : ∀ r n, c ≠ .newFunc r n) (p : Ptr) (f' : FuncSpec)
    (hf : h'.funcs p = some f') : f'.receiver = (h.funcs p).bind FuncSpec.receiver := by
  have e := exec_over (fin := fun p => (h.funcs p).bind FuncSpec.receiver) h c hn
  rw [over_idle (fun p f hp => by rw [hp]; rfl), hc] at e
  have e : h' = over _ h' := Outcome.ok.inj e
  rw [e] at hf
  simp only [over] at hf
  cases hp : h'.funcs p with
  | none => rw [hp] at hf; cases hf
  | some g => rw [hp] at hf; cases hf; rfl

theorem build_byValue : ∀ (cs : List RecvCall) (given : List Nat) {m m' : RecvHeap}, m.Fine → Settled cs given →
    (∀ p k, m.refs p = some (some k) → k ∈ given) → runRecv cs m = .ok m' → build (byValue cs m.recvs) m.seen = .ok m'.seen
  | [], _, m, m', _, _, _, hr => by cases hr; rfl
  | c :: cs, given, m, m', a, hs, hg, hr => by
    obtain ⟨g, h1, h2⟩ := bind_eq_ok hr
    have b := a.step h1
    have ih := fun given hs hg => build_byValue cs given (m := g) (m' := m') b hs hg h2
    cases c with
    | call c =>
      obtain ⟨h', h3, h4⟩ := bind_eq_ok h1
      cases h4
      have ih := ih given hs hg
      have key : c.exec m.seen = .ok ({ m with heap := h' } : RecvHeap).seen := by
        by_cases hc : ∃ r n, c = .newFunc r n
        · obtain ⟨r, n, rfl⟩ := hc
          cases h3
          have hn : m.refs m.heap.next = none := by
            by_contra h
            exact Nat.lt_irrefl _ (a.lt h)
          show Outcome.ok _ = Outcome.ok _
          congr 1
          simp only [newFunc, RecvHeap.seen, Heap.mk.injEq, true_and, and_true]
          funext q
          simp only [upd]
          split
          · rename_i e; rw [e, Option.map_some, RecvHeap.receiver, hn]
          · rfl
        · have hc : ∀ r n, c ≠ .newFunc r n := fun r n h => hc ⟨r, n, h⟩
          have e := exec_over (fin := m.receiverAt) m.heap c hc
          rw [h3, ← m.seen_over] at e
          rw [e]
          show Outcome.ok _ = Outcome.ok _
          congr 1
          rw [over, RecvHeap.seen]
          congr 1
          funext p
          cases hp : h'.funcs p with
          | none => rfl
          | some f =>
            rw [Option.map_some, Option.map_some, exec_receiver h3 hc p f hp]
            cases hq : m.heap.funcs p with
            | some f0 => simp [RecvHeap.receiverAt, RecvHeap.seen, hq, RecvHeap.receiver]
            | none =>
              have hn : m.refs p = none := by
                by_contra h
                exact a.refs p h hq
              simp [RecvHeap.receiverAt, RecvHeap.seen, hq, RecvHeap.receiver, hn]
      rw [byValue, build, key]
      exact ih
    | newReceiver r =>
      cases h1
      have ih := ih given hs hg
      have key : ({ m with recvs := m.recvs ++ [r] } : RecvHeap).seen = m.seen := by
        simp only [RecvHeap.seen, Heap.mk.injEq, true_and, and_true]
        funext p
        congr 1
        funext f
        simp only [RecvHeap.receiver]
        split
        · rfl
        · rfl
        · rename_i k hk
          rw [List.getElem?_append_left (a.recvs p k hk)]
      rw [key] at ih
      exact ih
    | change k r =>
      simp only [RecvCall.exec] at h1
      split at h1
      · cases h1
        have ih := ih given hs.2 hg
        have key : ({ m with recvs := m.recvs.set k r } : RecvHeap).seen = m.seen := by
          simp only [RecvHeap.seen, Heap.mk.injEq, true_and, and_true]
          funext p
          congr 1
          funext f
          simp only [RecvHeap.receiver]
          split
          · rfl
          · rfl
          · rename_i j hj
            rw [List.getElem?_set_ne]
            intro e
            exact hs.1 (e ▸ hg p j hj)
        rw [key] at ih
        exact ih
      · cases h1
    | newMethod k n =>
      simp only [RecvCall.exec] at h1
      split at h1
      · cases h1
        have ih := ih (k :: given) hs (by
          intro p j h
          simp only [upd] at h
          split at h
          · cases h; exact List.mem_cons_self
          · exact List.mem_cons_of_mem _ (hg p j h))
        rw [byValue, build]
        have key : (BuildCall.newFunc m.recvs[k]? n).exec m.seen =
            .ok ({ m with heap := (newFunc m.heap none n).2, refs := upd m.refs m.heap.next (some k) } : RecvHeap).seen := by
          show Outcome.ok _ = Outcome.ok _
          congr 1
          simp only [newFunc, RecvHeap.seen, Heap.mk.injEq, true_and, and_true]
          funext q
          simp only [upd]
          split
          · rename_i e; simp [RecvHeap.receiver, e]
          · rename_i e
            simp [RecvHeap.receiver, upd, e]
        rw [key]
        exact ih
      · cases h1
    | assign f k => exact hs.elim

/-- **C80** If no receiver is changed after it was given to a method, and none is assigned, receivers are values, which is what
`Model/Builders.lean` takes them for. -/
theorem C80_values {cs : List RecvCall} {m : RecvHeap} (hr : runRecv cs {} = .ok m) (hs : Settled cs []) :
    build (byValue cs []) {} = .ok m.seen :=
  build_byValue cs [] .empty hs (by intro p k h; cases h) hr

theorem receiver_after {p : Ptr} {k : Nat} : ∀ {cs : List RecvCall} {m m' : RecvHeap} {r : ReceiverSpec}, m.Fine →
    runRecv cs m = .ok m' → m.refs p = some (some k) → m.recvs[k]? = some r → cs.any (·.assigns p) = false →
    m'.receiverAt p = some (lastOr r (cs.filterMap (·.change? k)))
  | [], m, m', r, a, hr, hp, hk, _ => by
    cases hr
    cases hf : m.heap.funcs p with
    | none => exact absurd hf (a.refs p (by rw [hp]; simp))
    | some f => simp [RecvHeap.receiverAt, RecvHeap.seen, hf, RecvHeap.receiver, hp, hk, lastOr]
  | c :: cs, m, m', r, a, hr, hp, hk, hn => by
    obtain ⟨g, h1, h2⟩ := bind_eq_ok hr
    have b := a.step h1
    rw [List.any_cons, Bool.or_eq_false_iff] at hn
    have ih := fun (r : ReceiverSpec) hp hk => receiver_after (p := p) (k := k) (r := r) b h2 hp hk hn.2
    cases c with
    | call c =>
      obtain ⟨h', h3, h4⟩ := bind_eq_ok h1
      cases h4
      exact ih r hp hk
    | newReceiver q =>
      cases h1
      exact ih r hp (by
        show (m.recvs ++ [q])[k]? = _
        rw [List.getElem?_append_left (a.recvs p k hp), hk])
    | change j q =>
      simp only [RecvCall.exec] at h1
      split at h1
      · rename_i hj
        cases h1
        by_cases e : j = k
        · subst e
          rw [List.filterMap_cons_some (b := q) (by simp [RecvCall.change?]), ih q hp (by simp [hj])]
          rfl
        · rw [List.filterMap_cons_none (by simp [RecvCall.change?, e])]
          exact ih r hp (by rw [← hk]; exact List.getElem?_set_ne e)
      · cases h1
    | newMethod j n =>
      simp only [RecvCall.exec] at h1
      split at h1
      · cases h1
        refine ih r ?_ hk
        have := a.lt (p := p) (by rw [hp]; simp)
        simp only [upd]
        rw [if_neg (Nat.ne_of_lt this)]
        exact hp
      · cases h1
    | assign f j =>
      simp only [RecvCall.exec] at h1
      split at h1
      · cases h1
      · split at h1
        · cases h1
          refine ih r ?_ hk
          have : f ≠ p := by simpa [RecvCall.assigns] using hn.1
          simp only [upd]
          rw [if_neg (Ne.symm this)]
          exact hp
        · cases h1

/-- **C80** The receiver of a method is what was assigned last to the receiver that it was made with, before or after that, unless
another receiver is assigned to the method. -/
theorem C80_receiver {cs cs' : List RecvCall} {k : Nat} {name : GoString} {m m' : RecvHeap} {r : ReceiverSpec}
    (hr : runRecv cs {} = .ok m) (hk : m.recvs[k]? = some r) (hr' : runRecv (.newMethod k name :: cs') m = .ok m')
    (hn : cs'.any (·.assigns m.heap.next) = false) :
    m'.receiverAt m.heap.next = some (lastOr r (cs'.filterMap (·.change? k))) := by
  have a : m.Fine := RecvHeap.Fine.empty.run hr
  obtain ⟨g, h1, h2⟩ := bind_eq_ok hr'
  have b := a.step h1
  simp only [RecvCall.exec] at h1
  split at h1
  · cases h1
    exact receiver_after b h2 (by simp [upd]) hk hn
  · cases h1

/-- Two methods of `T` that share a receiver, which is `(s *T)` when they are made and `(t U)` in the end. -/
def exSharedReceiver : List RecvCall :=
  [.newReceiver { name := b! "s", type := b! "T", isPointer := true }, .newMethod 0 (b! "Get"), .newMethod 0 (b! "Set"),
    .call (.newFile (b! "a.go") (b! "example.com/foo") (b! "foo")), .call (.addElement 2 (.func 0)), .call (.addElement 2 (.func 1)),
    .change 0 { name := b! "t", type := b! "U" }]

/-- Both methods are written with the receiver of the end. -/
example : ((runRecv exSharedReceiver {}).bind fun m => (renderFile exEnv 3 2 m.seen).1) = .ok (b!
    "package foo\n\n\nfunc (t U) Get() {\n}\n\nfunc (t U) Set() {\n}\n") := by
  decide +kernel

/-- The program of C80_in_the_end: it is a program of C78 with methods of `U`. -/
example : ∃ m, runRecv exSharedReceiver {} = .ok m ∧ withReceivers m.receiverAt exSharedReceiver {} =
    [.newFunc (some { name := b! "t", type := b! "U" }) (b! "Get"), .newFunc (some { name := b! "t", type := b! "U" }) (b! "Set"),
      .newFile (b! "a.go") (b! "example.com/foo") (b! "foo"), .addElement 2 (.func 0), .addElement 2 (.func 1)] :=
  ⟨_, rfl, rfl⟩

/-- The receiver that C80_receiver says for the first method. -/
example : lastOr { name := b! "s", type := b! "T", isPointer := true } ((exSharedReceiver.drop 2).filterMap (·.change? 0)) =
    ({ name := b! "t", type := b! "U" } : ReceiverSpec) := by
  decide +kernel

/-- As values, receivers would be those of the time when the methods were made. -/
example : ((build (byValue exSharedReceiver []) {}).bind fun h => (renderFile exEnv 3 2 h).1) = .ok (b!
    "package foo\n\n\nfunc (s *T) Get() {\n}\n\nfunc (s *T) Set() {\n}\n") := by
  decide +kernel

/-- Without the condition, C80_values does not hold. -/
theorem C80_values_needed : ∃ (cs : List RecvCall) (m : RecvHeap), runRecv cs {} = .ok m ∧ build (byValue cs []) {} ≠ .ok m.seen := by
  refine ⟨exSharedReceiver, (match runRecv exSharedReceiver {} with | .ok m => m | _ => {}), rfl, fun h => ?_⟩
  have h := congrArg (fun o : Outcome Heap => o.bind fun h => (renderFile exEnv 3 2 h).1) h
  revert h
  decide +kernel

/-- The program without the change fulfils the condition, and so does one that changes a receiver before it gives it to a method. -/
example : Settled exSharedReceiver.dropLast [] ∧
    Settled [.newReceiver { name := b! "s", type := b! "T" }, .change 0 { name := b! "t", type := b! "T" }, .newMethod 0 (b! "Get")] [] := by
  simp [Settled, exSharedReceiver]

end Gopoet
