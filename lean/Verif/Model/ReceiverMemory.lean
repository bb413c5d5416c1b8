import Verif.Spec.Builders
/-!
# Receivers in memory

`Model/Heap.lean` has the receiver of a method as a value in its `FuncSpec`. In Go it is a pointer (model.go:1429) that `NewMethod`
keeps (model.go:1442-1444), so that methods can share a receiver, and whoever has the pointer can change it. Here receivers have
addresses.
-/

namespace Gopoet

/-- The heap, the receivers in the order in which they were made (their addresses are their positions), and which functions refer to
which receiver. For functions that refer to none of them, the receiver in the heap counts. -/
structure RecvHeap where
  heap : Heap := {}
  recvs : List ReceiverSpec := []
  refs : Ptr → Option (Option Nat) := fun _ => none

/-- A call of a program that has pointers to receivers. -/
inductive RecvCall where
  /-- a call that has nothing to do with such pointers; `NewMethod` with a receiver that nobody else has is among them -/
  | call (c : BuildCall)
  /-- `NewReceiver` and its kin — model.go:1648-1708 — for the values see `newReceiver` in Model/File.lean -/
  | newReceiver (r : ReceiverSpec)
  /-- assignments to `Name`, `Type` and `IsPointer`, which are exported — model.go:1643-1645 -/
  | change (k : Nat) (r : ReceiverSpec)
  /-- `NewMethod` — model.go:1442-1444 -/
  | newMethod (k : Nat) (name : GoString)
  /-- an assignment to `FuncSpec.Receiver`, which is exported — model.go:1429 -/
  | assign (f : Ptr) (k : Option Nat)

/-- Executes such a call. There are no pointers to receivers that were not made, or functions. -/
def RecvCall.exec (m : RecvHeap) : RecvCall → Outcome RecvHeap
  | .call c => (c.exec m.heap).bind fun h => .ok { m with heap := h }
  | .newReceiver r => .ok { m with recvs := m.recvs ++ [r] }
  | .change k r => if k < m.recvs.length then .ok { m with recvs := m.recvs.set k r } else .panic
  | .newMethod k name =>
    if k < m.recvs.length then
      .ok { m with heap := (newFunc m.heap none name).2, refs := upd m.refs m.heap.next (some k) }
    else .panic
  | .assign f k =>
    match m.heap.funcs f with
    | none => .panic
    | some _ => if ∀ j, k = some j → j < m.recvs.length then .ok { m with refs := upd m.refs f k } else .panic

/-- Executes calls in order. -/
def runRecv : List RecvCall → RecvHeap → Outcome RecvHeap
  | [], m => .ok m
  | c :: cs, m => (c.exec m).bind (runRecv cs)

/-- The receiver that is read when the pointer in the function is dereferenced. -/
def RecvHeap.receiver (m : RecvHeap) (p : Ptr) (own : Option ReceiverSpec) : Option ReceiverSpec :=
  match m.refs p with
  | none => own
  | some none => none
  | some (some k) => m.recvs[k]?

/-- What the functions of the model that write files see: in each function, the receiver that its pointer leads to. -/
def RecvHeap.seen (m : RecvHeap) : Heap :=
  { m.heap with funcs := fun p => (m.heap.funcs p).map fun f => { f with receiver := m.receiver p f.receiver } }

end Gopoet
