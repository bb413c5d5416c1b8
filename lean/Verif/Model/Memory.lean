import Verif.Model.Heap
/-!
# Qualification of types with memory

imports.go:123-315 once more, this time with pointers, slices that may share their arrays, and
stores. The model in `Verif.Model.Imports` treats types as immutable trees and says with a Boolean
whether the Go code returns the very same value; here both can be observed.
-/

namespace Gopoet

/-- A slice: a part of an array. A nil slice has length 0 (and any array). The capacity matters
for appending only; there it is taken to end with the array (`Verif.Model.SigMemory`). -/
structure Slice where
  arr : Nat
  off : Nat
  len : Nat
  deriving DecidableEq, Repr

/-- `TypeName` with memory: an interface value. `namedTypeName` (types.go:196), `funcTypeName` (316),
`structTypeName` (334) and `interfaceTypeName` (354) are used by pointer, the others by value
(178, 214, 234, 254, 275, 295). Go's `==` on interface values is equality here: pointers are
compared as pointers, the struct values field by field. -/
inductive MType where
  | nil
  | basic (k : ReflectKind)
  | named (p : Nat)
  | ptr (elem : MType)
  | slice (elem : MType)
  | array (elem : MType) (length : Int)
  | map (elem key : MType)
  | chan (elem : MType) (dir : ChanDir)
  | func (p : Nat)
  | struct (p : Nat)
  | interface (p : Nat)
  deriving DecidableEq

/-- `Signature` — types.go:123-127. -/
structure MSig where
  args : Slice
  results : Slice
  isVariadic : Bool
  deriving DecidableEq

/-- `InterfaceMethod` — model.go:1315-1319 — with memory. -/
structure MMethod where
  comment : GoString
  name : GoString
  sig : MSig
  parent : Option Ptr

/-- Template data with memory: what a variable of a given type holds (see `TVal` in `Verif.Model.Heap`; used in
`Verif.Model.DataMemory`). Pointers may point into structs and arrays; nil pointers are scalars, as are nil maps
and nil interfaces. Reflect types, go/types types and objects and `*types.Package`s are pointers to things
outside of this memory: the number tells which pointer it is. -/
inductive DVal where
  | scalar (id : Nat)
  | package (p : Package)
  | symbol (s : Symbol)
  | mref (m : MethodReference)
  | signature (s : MSig)
  | spec (r : SpecRef)
  | specCopy (r : SpecRef) (pkgName : GoString)
  | embed (e : InterfaceEmbed)
  | method (m : MMethod)
  | imports
  | typeName (t : MType)
  | reflectType (id : Nat) (t : RT)
  | goType (id : Nat) (t : GT)
  | goObject (id : Nat) (o : TypesObject)
  | goPackage (id : Nat) (p : TypesPackage)
  | iface (accepts : Accepts) (v : DVal)
  /-- the address and the way to a part of what is there: the numbers of fields and elements -/
  | ptr (a : Nat) (path : List Nat)
  | struct (fields : List (Bool × DVal))
  | array (elems : List DVal)
  | slice (s : Slice)
  | map (a : Nat)

/-- An element of an array: `ArgType` (types.go:158-161), `FieldType` (165-169), `MethodType`
(173-176, with the signature by value), `Symbol`, or some template data. -/
inductive Elem where
  | arg (name : GoString) (type : MType)
  | field (name : GoString) (type : MType) (tag : GoString)
  | method (name : GoString) (sig : MSig)
  | sym (s : Symbol)
  | data (v : DVal)

/-- What is at an address: a `namedTypeName`, a `Signature` (or `funcTypeName`, the same memory), a
`structTypeName`, an `interfaceTypeName`, an array, some template data or a map (in the order in which
`MapKeys` returns the keys). -/
inductive Cell where
  | named (s : Symbol)
  | sig (s : MSig)
  | struct (fields : Slice)
  | interface (methods embeds : Slice)
  | array (l : List Elem)
  | data (v : DVal)
  | map (es : List (DVal × DVal))

/-- Memory. Addresses from `next` on are free. `stores` lists the addresses that were stored to (the
initialization of newly allocated memory does not count). -/
structure Mem where
  cells : Nat → Option Cell
  next : Nat
  stores : List Nat

/-- Computations with memory and imports. -/
def MM (α : Type) := Mem → Imports → Outcome α × Mem × Imports

namespace MM

protected def pure {α} (a : α) : MM α := fun m i => (.ok a, m, i)

protected def bind {α β} (x : MM α) (f : α → MM β) : MM β := fun m i =>
  match x m i with
  | (.ok a, m, i) => f a m i
  | (.panic, m, i) => (.panic, m, i)
  | (.hang, m, i) => (.hang, m, i)

instance : Monad MM where
  pure := MM.pure
  bind := MM.bind

/-- A panic. -/
def panic {α} : MM α := fun m i => (.panic, m, i)

/-- No end. -/
def hang {α} : MM α := fun m i => (.hang, m, i)

/-- A computation on the imports. -/
def onImports {α} (x : IM α) : MM α := fun m i =>
  match x i with
  | (o, i) => (o, m, i)

/-- New memory. -/
def alloc (c : Cell) : MM Nat := fun m i =>
  (.ok m.next, { m with cells := fun p => if p = m.next then some c else m.cells p, next := m.next + 1 }, i)

/-- A load; dereferencing a bad pointer panics. -/
def load (p : Nat) : MM Cell := fun m i =>
  match m.cells p with
  | some c => (.ok c, m, i)
  | none => (.panic, m, i)

/-- A store. -/
def store (p : Nat) (c : Cell) : MM Unit := fun m i =>
  (.ok (), { m with cells := fun q => if q = p then some c else m.cells q, stores := p :: m.stores }, i)

/-- `*p` for a `*Signature` -/
def loadSig (p : Nat) : MM MSig := do
  match ← load p with
  | .sig s => pure s
  | _ => panic

/-- The elements of a slice. -/
def loadSlice (s : Slice) : MM (List Elem) := fun m i =>
  if s.len = 0 then (.ok [], m, i)
  else match m.cells s.arr with
  | some (.array l) => (.ok ((l.drop s.off).take s.len), m, i)
  | _ => (.panic, m, i)

/-- `s[idx]` -/
def loadElem (s : Slice) (idx : Nat) : MM Elem := do
  match (← loadSlice s)[idx]? with
  | some x => pure x
  | none => panic

/-- `s[idx] = x` -/
def storeElem (s : Slice) (idx : Nat) (x : Elem) : MM Unit := do
  match ← load s.arr with
  | .array l => if idx < s.len then store s.arr (.array (l.set (s.off + idx) x)) else panic
  | _ => panic

/-- `ret := make([]T, len(s)); copy(ret, s)` and `append([]T{}, s...)`: a new array with the elements
of a slice. -/
def copySlice (s : Slice) : MM Slice := do
  let l ← loadSlice s
  let p ← alloc (.array l)
  pure ⟨p, 0, s.len⟩

end MM

open MM

/-- `if ret == nil { ret = make(…); copy(ret, s) }` — imports.go:250-253 and so on. -/
def orCopy (s : Slice) : Option Slice → MM Slice
  | none => copySlice s
  | some ret => pure ret

/-- The loop that the functions `qualifySymbols`, `qualifyArgs`, `qualifyFields` and `qualifyMethods`
(imports.go:247-256, 265-274, 283-292, 301-310) have in common, for `n` elements from `idx` on; `f`
gives the new element if there is one. The elements are loaded from memory one by one, as in Go. -/
def rangeLoop (f : Elem → MM (Option Elem)) (s : Slice) : Nat → Nat → Option Slice → MM (Option Slice)
  | 0, _, ret => pure ret
  | n + 1, idx, ret => do
    let x ← loadElem s idx
    match ← f x with
    | none => rangeLoop f s n (idx + 1) ret
    | some y => do
      let ret ← orCopy s ret
      storeElem ret idx y
      rangeLoop f s n (idx + 1) (some ret)

/-- The loop and what follows it: imports.go:246-260 and so on. -/
def rangeCopy (f : Elem → MM (Option Elem)) (s : Slice) : MM Slice := do
  match ← rangeLoop f s s.len 0 none with
  | none => pure s
  | some ret => pure ret

/-- `qualifySymbols` — imports.go:245-261. -/
def qualifySymbolsM (r : Bool) : Slice → MM Slice :=
  rangeCopy fun
    | .sym s => do
      let nt ← onImports (Imports.qualify s r)
      if nt ≠ s then pure (some (.sym nt)) else pure none
    | _ => panic

/-- `qualifyArgs` — imports.go:263-279. `q` is `qualifyType`. -/
def qualifyArgsM (q : MType → MM MType) : Slice → MM Slice :=
  rangeCopy fun
    | .arg name type => do
      let nt ← q type
      if nt ≠ type then pure (some (.arg name nt)) else pure none
    | _ => panic

/-- `qualifyFields` — imports.go:281-297. -/
def qualifyFieldsM (q : MType → MM MType) : Slice → MM Slice :=
  rangeCopy fun
    | .field name type tag => do
      let nt ← q type
      if nt ≠ type then pure (some (.field name nt tag)) else pure none
    | _ => panic

/-- `qualifySignature` — imports.go:230-237. `sameSlice` (239-243) is equality here; slices of length
0 are never copied, so that their arrays do not matter. -/
def qualifySignatureM (q : MType → MM MType) (p : Nat) : MM Nat := do
  let s ← loadSig p
  let args ← qualifyArgsM q s.args
  let s ← loadSig p
  let results ← qualifyArgsM q s.results
  let s ← loadSig p
  if args ≠ s.args ∨ results ≠ s.results then alloc (.sig ⟨args, results, s.isVariadic⟩)
  else pure p

/-- `qualifyMethods` — imports.go:299-315. The loop variable `m` is one variable for the whole loop
(go.mod says 1.13) and escapes by `&m.Signature`. -/
def qualifyMethodsM (q : MType → MM MType) (methods : Slice) : MM Slice := do
  let m ← alloc (.sig ⟨⟨0, 0, 0⟩, ⟨0, 0, 0⟩, false⟩)
  rangeCopy (fun
    | .method name sig => do
      store m (.sig sig)
      let ns ← qualifySignatureM q m
      if ns ≠ m then do
        let s ← loadSig ns
        pure (some (.method name s))
      else pure none
    | _ => panic) methods

/-- `t.Type == nil` — types.go:726, 731. -/
def Elem.nilTyped : Elem → Bool
  | .arg _ .nil => true
  | _ => false

/-- `FuncTypeFromSig` — types.go:724-739. -/
def funcTypeFromSigM (p : Nat) : MM MType := do
  let s ← loadSig p
  let args ← loadSlice s.args
  let results ← loadSlice s.results
  if args.any Elem.nilTyped then panic
  else if results.any Elem.nilTyped then panic
  else if s.isVariadic then
    match args.getLast? with
    | some (.arg _ (.slice _)) => pure (.func p)
    | _ => panic
  else pure (.func p)

/-- `qualifyType` — imports.go:152-214. The recursion is bounded by `fuel`; types can be cyclic (a
signature can get an argument whose type it is), and then Go does not return, either. -/
def qualifyTypeM (r : Bool) : Nat → MType → MM MType
  | 0, _ => hang
  | fuel + 1, n =>
    match n with
    | .nil => panic
    | .basic k => pure (.basic k)
    | .named p => do
      match ← load p with
      | .named sym =>
        let nsym ← onImports (Imports.qualify sym r)
        if nsym ≠ sym then do
          let q ← alloc (.named nsym)
          pure (.named q)
        else pure (.named p)
      | _ => panic
    | .ptr elem => do
      let nelem ← qualifyTypeM r fuel elem
      if nelem ≠ elem then
        if nelem = .nil then panic else pure (.ptr nelem)
      else pure (.ptr elem)
    | .slice elem => do
      let nelem ← qualifyTypeM r fuel elem
      if nelem ≠ elem then
        if nelem = .nil then panic else pure (.slice nelem)
      else pure (.slice elem)
    | .array elem length => do
      let nelem ← qualifyTypeM r fuel elem
      if nelem ≠ elem then
        if nelem = .nil ∨ length < 0 then panic else pure (.array nelem length)
      else pure (.array elem length)
    | .map elem key => do
      let nkey ← qualifyTypeM r fuel key
      let nelem ← qualifyTypeM r fuel elem
      if nelem ≠ elem ∨ nkey ≠ key then
        if nkey = .nil ∨ nelem = .nil then panic else pure (.map nelem nkey)
      else pure (.map elem key)
    | .chan elem d => do
      let nelem ← qualifyTypeM r fuel elem
      if nelem ≠ elem then
        let d := if d = 0 then bothDir else d
        if nelem = .nil ∨ d &&& ~~~bothDir ≠ 0 then panic else pure (.chan nelem d)
      else pure (.chan elem d)
    | .func p => do
      let np ← qualifySignatureM (qualifyTypeM r fuel) p
      if np ≠ p then funcTypeFromSigM np else pure (.func p)
    | .struct p => do
      match ← load p with
      | .struct fields =>
        let fields ← copySlice fields
        let nfields ← qualifyFieldsM (qualifyTypeM r fuel) fields
        if nfields ≠ fields then do
          let q ← alloc (.struct nfields)
          pure (.struct q)
        else pure (.struct p)
      | _ => panic
    | .interface p => do
      match ← load p with
      | .interface methods embeds =>
        let embeds ← copySlice embeds
        let nembeds ← qualifySymbolsM r embeds
        let methods ← copySlice methods
        let nmethods ← qualifyMethodsM (qualifyTypeM r fuel) methods
        if nembeds ≠ embeds ∨ nmethods ≠ methods then do
          let q ← alloc (.interface nmethods nembeds)
          pure (.interface q)
        else pure (.interface p)
      | _ => panic

/-- `EnsureTypeImported` — imports.go:141-143. -/
def ensureTypeImportedM (fuel : Nat) (t : MType) : MM MType := qualifyTypeM true fuel t

/-- `QualifyType` — imports.go:148-150. -/
def qualifyTypeOnlyM (fuel : Nat) (t : MType) : MM MType := qualifyTypeM false fuel t

/-- `EnsureAllTypesImported` — imports.go:219-221. -/
def ensureAllTypesImportedM (fuel : Nat) (s : Nat) : MM Nat := qualifySignatureM (qualifyTypeM true fuel) s

/-- `QualifySignature` — imports.go:226-228. -/
def qualifySignatureOnlyM (fuel : Nat) (s : Nat) : MM Nat := qualifySignatureM (qualifyTypeM false fuel) s

end Gopoet
