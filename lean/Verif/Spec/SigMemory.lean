import Verif.Model.SigMemory
import Verif.Spec.Memory
/-!
# What programs do with signatures and types if these are values
-/

namespace Gopoet

/-- The signatures and types of a program, as values. -/
structure SigVals where
  sigs : List Signature := []
  types : List TypeName := []

namespace SigVals

/-- The signature with a number. -/
def sig (v : SigVals) (k : Nat) : Outcome Signature :=
  match v.sigs[k]? with
  | some s => .ok s
  | none => .panic

/-- The type with a number. -/
def type (v : SigVals) (k : Nat) : Outcome TypeName :=
  match v.types[k]? with
  | some t => .ok t
  | none => .panic

/-- One more signature. -/
def addSig (v : SigVals) (s : Signature) : SigVals := { v with sigs := v.sigs ++ [s] }

/-- One more type. -/
def addType (v : SigVals) (t : TypeName) : SigVals := { v with types := v.types ++ [t] }

/-- Another value for a signature. -/
def setSig (v : SigVals) (k : Nat) (s : Signature) : SigVals := { v with sigs := v.sigs.set k s }

/-- The fields of a struct type. -/
def fields (v : SigVals) : List (GoString × Nat × GoString) → Outcome (List FieldType)
  | [] => .ok []
  | (name, t, tag) :: l => do
    let t ← v.type t
    let l ← v.fields l
    pure (⟨name, t, tag⟩ :: l)

/-- The methods of an interface type. -/
def methods (v : SigVals) : List (GoString × Nat) → Outcome (List MethodType)
  | [] => .ok []
  | (name, o) :: l => do
    let s ← v.sig o
    let l ← v.methods l
    pure (⟨name, s⟩ :: l)

end SigVals

/-- What the commands do with values: a command changes at most one signature, and no type. -/
def SigCmd.execV (v : SigVals) : SigCmd → IM SigVals
  | .new => pure (v.addSig ⟨[], [], false⟩)
  | .addArg o name t => do
    let s ← IM.lift (v.sig o)
    let t ← IM.lift (v.type t)
    pure (v.setSig o ⟨s.args ++ [⟨name, t⟩], s.results, s.isVariadic⟩)
  | .addResult o name t => do
    let s ← IM.lift (v.sig o)
    let t ← IM.lift (v.type t)
    pure (v.setSig o ⟨s.args, s.results ++ [⟨name, t⟩], s.isVariadic⟩)
  | .setVariadic o b => do
    let s ← IM.lift (v.sig o)
    pure (v.setSig o ⟨s.args, s.results, b⟩)
  | .qualify o => do
    let s ← IM.lift (v.sig o)
    let s ← Imports.ensureAllTypesImported s
    pure (v.setSig o s)
  | .nilType => pure (v.addType .nil)
  | .basicType k => do
    let t ← IM.lift (Gopoet.basicType k)
    pure (v.addType t)
  | .namedType s => pure (v.addType (.named s))
  | .pointerType t => do
    let t ← IM.lift (v.type t)
    let t ← IM.lift (Gopoet.pointerType t)
    pure (v.addType t)
  | .sliceType t => do
    let t ← IM.lift (v.type t)
    let t ← IM.lift (Gopoet.sliceType t)
    pure (v.addType t)
  | .arrayType t n => do
    let t ← IM.lift (v.type t)
    let t ← IM.lift (Gopoet.arrayType t n)
    pure (v.addType t)
  | .mapType k e => do
    let k ← IM.lift (v.type k)
    let t ← IM.lift (v.type e)
    let t ← IM.lift (Gopoet.mapType k t)
    pure (v.addType t)
  | .channelType t d => do
    let t ← IM.lift (v.type t)
    let t ← IM.lift (Gopoet.channelType t d)
    pure (v.addType t)
  | .structType fields => do
    let l ← IM.lift (v.fields fields)
    pure (v.addType (.struct l))
  | .interfaceType methods embeds => do
    let l ← IM.lift (v.methods methods)
    pure (v.addType (.interface l embeds))
  | .ensureType t => do
    let t ← IM.lift (v.type t)
    let t ← Imports.ensureTypeImported t
    pure (v.addType t)
  | .funcType o => do
    let s ← IM.lift (v.sig o)
    let t ← IM.lift (funcTypeFromSig s)
    pure (v.addType t)
  | .methodType o r pkg => do
    let s ← IM.lift (v.sig o)
    match pkg with
    | none => IM.panic
    | some pkg =>
      let named : TypeName := .named { name := r.type, package := pkg }
      let t ← IM.lift (funcTypeFromSig
        ⟨⟨r.name, if r.isPointer then .ptr named else named⟩ :: s.args, s.results, s.isVariadic⟩)
      pure (v.addType t)
  | .interfaceMethodType o t => do
    let s ← IM.lift (v.sig o)
    let rt ← IM.lift (v.type t)
    let t ← IM.lift (funcTypeFromSig ⟨⟨[], rt⟩ :: s.args, s.results, s.isVariadic⟩)
    pure (v.addType t)
  | .copy o => do
    let s ← IM.lift (v.sig o)
    pure (v.addSig s)
  | .sigOf t => do
    let t ← IM.lift (v.type t)
    match t with
    | .func s => pure (v.addSig s)
    | _ => IM.panic

/-- What a program does with values. -/
def runSigV : SigVals → List SigCmd → IM SigVals
  | v, [] => pure v
  | v, c :: cs => do
    let v ← c.execV v
    runSigV v cs

/-- The signature that a command changes. -/
def SigCmd.changes : SigCmd → Option Nat
  | .addArg o _ _ => some o
  | .addResult o _ _ => some o
  | .setVariadic o _ => some o
  | .qualify o => some o
  | _ => none

/-- The command makes no copy of a signature and does not ask a type for its signature. -/
def SigCmd.plain : SigCmd → Bool
  | .copy _ => false
  | .sigOf _ => false
  | _ => true

/-- The signature of which the command makes a type that shares its memory: `FuncTypeFromSig` and
`FuncSpec.ToTypeName` of a function without receiver do that. -/
def SigCmd.shares : SigCmd → List Nat
  | .funcType o => [o]
  | _ => []

/-- The program makes no copies of signatures and does not ask types for their signature, and a signature is not
changed any more once it is shared with a type. `shared` are the signatures that are. -/
def disciplined : List Nat → List SigCmd → Bool
  | _, [] => true
  | shared, c :: cs =>
    c.plain && (match c.changes with
      | some o => !shared.contains o
      | none => true) && disciplined (c.shares ++ shared) cs

/-! ### Which lists have been continued -/

/-- The arguments and the results of a signature are lists. Each list that comes about by adding something to another
list gets a number of its own; a copy has the number of what was copied. The empty list is 0. -/
structure ListIds where
  args : Nat := 0
  results : Nat := 0

/-- What is known about the memory of a program without running it. -/
structure SigPlan where
  /-- the lists of the signatures, and whether a type has the very memory of the signature -/
  sigs : List (ListIds × Bool) := []
  /-- the lists of the types, as far as these are types of functions -/
  types : List ListIds := []
  /-- the lists to which something was added -/
  used : List Nat := []
  /-- the next number -/
  next : Nat := 1

namespace SigPlan

/-- Nothing was added to the list, so that something can be added to it. -/
def free (p : SigPlan) (n : Nat) : Bool := n == 0 || !p.used.contains n

/-- A signature (if there is none with this number, the program panics). -/
def sig (p : SigPlan) (o : Nat) : ListIds × Bool := p.sigs.getD o ({}, false)

/-- The lists of a type. -/
def type (p : SigPlan) (t : Nat) : ListIds := p.types.getD t {}

/-- One more type. -/
def addType (p : SigPlan) (x : ListIds) : SigPlan := { p with types := p.types ++ [x] }

/-- One more signature. -/
def addSig (p : SigPlan) (x : ListIds × Bool) : SigPlan := { p with sigs := p.sigs ++ [x] }

/-- A command, if it is allowed. Not allowed are: changes of a signature whose memory a type has, and adding to a list
to which something was added before. -/
def step (p : SigPlan) : SigCmd → Option SigPlan
  | .new => some (p.addSig ({}, false))
  | .addArg o _ _ =>
    if (p.sig o).2 || !p.free (p.sig o).1.args then none
    else some { p with
      sigs := p.sigs.set o (⟨p.next, (p.sig o).1.results⟩, false)
      used := (p.sig o).1.args :: p.used
      next := p.next + 1 }
  | .addResult o _ _ =>
    if (p.sig o).2 || !p.free (p.sig o).1.results then none
    else some { p with
      sigs := p.sigs.set o (⟨(p.sig o).1.args, p.next⟩, false)
      used := (p.sig o).1.results :: p.used
      next := p.next + 1 }
  | .setVariadic o _ => if (p.sig o).2 then none else some p
  | .qualify o => if (p.sig o).2 then none else some p
  | .ensureType t => some (p.addType (p.type t))
  | .funcType o => some { p.addType (p.sig o).1 with sigs := p.sigs.set o ((p.sig o).1, true) }
  | .methodType o _ _ => some { p.addType ⟨p.next, (p.sig o).1.results⟩ with next := p.next + 1 }
  | .interfaceMethodType _ _ => some { p.addType ⟨p.next, p.next + 1⟩ with next := p.next + 2 }
  | .copy o => some (p.addSig ((p.sig o).1, false))
  | .sigOf t => some (p.addSig (p.type t, true))
  | _ => some (p.addType {})

/-- A program, if it is allowed. -/
def run : SigPlan → List SigCmd → Option SigPlan
  | p, [] => some p
  | p, c :: cs => (p.step c).bind (·.run cs)

end SigPlan

/-- The program does not change a signature whose memory a type has, and adds to each list of arguments or results at
most once (to empty ones as often as it likes). -/
def orderly (cmds : List SigCmd) : Bool := (SigPlan.run {} cmds).isSome

/-- In memory, the signatures and types of the program are the given ones. -/
def SigRefs.Are (m : Mem) (r : SigRefs) (v : SigVals) : Prop :=
  r.objs.length = v.sigs.length ∧ r.types.length = v.types.length ∧
  (∀ (k : Nat) p s, r.objs[k]? = some p → v.sigs[k]? = some s → m.IsSig s p) ∧
  ∀ (k : Nat) w t, r.types[k]? = some w → v.types[k]? = some t → m.IsType t w

/-- Empty memory. -/
def Mem.empty : Mem := ⟨fun _ => none, 0, []⟩

end Gopoet
