import Verif.Model.ReceiverMemory
/-! What programs with pointers to receivers say (C80). -/

namespace Gopoet

/-- A call as one without pointers to receivers, if there is anything left of it: methods are made with the receiver `r`. -/
def RecvCall.plain (r : Option ReceiverSpec) : RecvCall → List BuildCall
  | .call (.newFunc _ name) => [.newFunc r name]
  | .call c => [c]
  | .newMethod _ name => [.newFunc r name]
  | _ => []

/-- The program without pointers to receivers in which each method has, from the beginning, the receiver that `fin` says for its
address. -/
def withReceivers (fin : Ptr → Option ReceiverSpec) : List RecvCall → RecvHeap → List BuildCall
  | [], _ => []
  | c :: cs, m => c.plain (fin m.heap.next) ++
    match c.exec m with
    | .ok m' => withReceivers fin cs m'
    | _ => []

/-- The receiver of the function at an address. -/
def RecvHeap.receiverAt (m : RecvHeap) (p : Ptr) : Option ReceiverSpec := (m.seen.funcs p).bind FuncSpec.receiver

/-- The program in which each method is given the value that its receiver has at that moment, given the values of the receivers so
far. -/
def byValue : List RecvCall → List ReceiverSpec → List BuildCall
  | [], _ => []
  | .call c :: cs, l => c :: byValue cs l
  | .newReceiver r :: cs, l => byValue cs (l ++ [r])
  | .change k r :: cs, l => byValue cs (l.set k r)
  | .newMethod k name :: cs, l => .newFunc l[k]? name :: byValue cs l
  | .assign _ _ :: cs, l => byValue cs l

/-- The value that a call gives to the receiver at this address. -/
def RecvCall.change? (k : Nat) : RecvCall → Option ReceiverSpec
  | .change j r => if j = k then some r else none
  | _ => none

/-- Whether a call assigns a receiver to this function. -/
def RecvCall.assigns (p : Ptr) : RecvCall → Bool
  | .assign f _ => f == p
  | _ => false

/-- Receivers are not changed after they were given to a method, and those of functions are not assigned. `given` are the receivers
that were given to methods so far. -/
def Settled : List RecvCall → List Nat → Prop
  | [], _ => True
  | .newMethod k _ :: cs, given => Settled cs (k :: given)
  | .change k _ :: cs, given => k ∉ given ∧ Settled cs given
  | .assign _ _ :: _, _ => False
  | _ :: cs, given => Settled cs given

end Gopoet
