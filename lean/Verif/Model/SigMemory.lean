import Verif.Model.Memory
import Verif.Model.File
/-!
# Signatures and the types made from them, with memory

The methods of `Signature` (types.go:133-154) append to slices, and the types made by `FuncTypeFromSig`
(types.go:724-739) and `FuncSpec.ToTypeName` (model.go:1573-1597) are pointers to signatures. In `Verif.Model.Heap`
signatures and types are values; here they are in memory, so that it can be said when this is the same.

A signature is an object at an address: the `Signature` in a `FuncSpec` (model.go:1427-1433) or in an
`InterfaceMethod` (model.go:1315-1319), or one of its own. The rest of specs does not matter here.
-/

namespace Gopoet
open MM

/-- How many more elements than needed `append` makes room for when it allocates: that is up to Go. -/
abbrev Growth := Mem → Slice → Nat

/-- The zero value of `ArgType`. -/
def Elem.zeroArg : Elem := .arg [] .nil

/-- `append(s, x)` for a slice of `ArgType`s. The capacity of a slice ends with its array. If there is room,
the element is stored into the array, otherwise there is a new array. An empty slice is taken to have no room
(in the code modelled here it is nil). -/
def appendElem (g : Growth) (s : Slice) (x : Elem) : MM Slice := fun m i =>
  if s.len = 0 then (do
    let a ← alloc (.array (x :: List.replicate (g m s) Elem.zeroArg))
    pure ⟨a, 0, 1⟩ : MM Slice) m i
  else (do
    match ← load s.arr with
    | .array l =>
      if s.off + s.len < l.length then do
        store s.arr (.array (l.set (s.off + s.len) x))
        pure { s with len := s.len + 1 }
      else do
        let a ← alloc (.array ((l.drop s.off).take s.len ++ x :: List.replicate (g m s) Elem.zeroArg))
        pure ⟨a, 0, s.len + 1⟩
    | _ => panic : MM Slice) m i

/-- `NewFunc`, `NewMethod` (model.go:1436-1444), `NewInterfaceMethod` (1322-1324) and `&Signature{}`, as far as
the signature is concerned. -/
def newSigM : MM Nat := alloc (.sig ⟨⟨0, 0, 0⟩, ⟨0, 0, 0⟩, false⟩)

/-- `Signature.AddArg` — types.go:133-136. -/
def sigAddArgM (g : Growth) (p : Nat) (name : GoString) (t : MType) : MM Unit := do
  let s ← loadSig p
  let a ← appendElem g s.args (.arg name t)
  store p (.sig { s with args := a })

/-- `Signature.AddResult` — types.go:142-145. -/
def sigAddResultM (g : Growth) (p : Nat) (name : GoString) (t : MType) : MM Unit := do
  let s ← loadSig p
  let a ← appendElem g s.results (.arg name t)
  store p (.sig { s with results := a })

/-- `Signature.SetVariadic` — types.go:151-154. -/
def sigSetVariadicM (p : Nat) (b : Bool) : MM Unit := do
  let s ← loadSig p
  store p (.sig { s with isVariadic := b })

/-- `FuncSpec.qualify` (model.go:1628-1632, without the body) and `InterfaceMethod.qualify` (1411-1418). -/
def sigQualifyM (fuel : Nat) (p : Nat) : MM Unit := do
  let q ← ensureAllTypesImportedM fuel p
  if q ≠ p then do
    let s ← loadSig q
    store p (.sig s)
  else pure ()

/-- `NamedType` — types.go:685-687. -/
def namedTypeM (s : Symbol) : MM MType := do
  let p ← alloc (.named s)
  pure (.named p)

/-- `BasicType` — types.go:638-646. `UnsafePointerType` is a variable; here it is in new memory every time. -/
def basicTypeM (k : ReflectKind) : MM MType :=
  if k = .unsafePointer then namedTypeM (newSymbol (b! "unsafe") (b! "Pointer"))
  else if k.isBasic then pure (.basic k)
  else panic

/-- `PointerType` — types.go:649-654. -/
def pointerTypeM (t : MType) : MM MType := if t = .nil then panic else pure (.ptr t)

/-- `SliceType` — types.go:658-663. -/
def sliceTypeM (t : MType) : MM MType := if t = .nil then panic else pure (.slice t)

/-- `ArrayType` — types.go:667-672. -/
def arrayTypeM (t : MType) (length : Int) : MM MType :=
  if t = .nil ∨ length < 0 then panic else pure (.array t length)

/-- `MapType` — types.go:676-681. -/
def mapTypeM (k v : MType) : MM MType := if k = .nil ∨ v = .nil then panic else pure (.map v k)

/-- `ChannelType` — types.go:692-700. -/
def channelTypeM (t : MType) (d : ChanDir) : MM MType :=
  let d := if d = 0 then bothDir else d
  if t = .nil ∨ d &&& ~~~bothDir ≠ 0 then panic else pure (.chan t d)

/-- `FuncSpec.ToTypeName` — model.go:1573-1597 — for the signature at `p`. `pkg` is the package of the file of
the function, if it has one. -/
def funcToTypeNameM (p : Nat) : Option ReceiverSpec → Option Package → MM MType
  | none, _ => funcTypeFromSigM p
  | some _, none => panic
  | some r, some pkg => do
    let named ← namedTypeM { name := r.type, package := pkg }
    let rt ← (if r.isPointer then pointerTypeM named else pure named)
    let s ← loadSig p
    let l ← loadSlice s.args
    let a ← alloc (.array (.arg r.name rt :: l))
    let q ← alloc (.sig ⟨⟨a, 0, s.args.len + 1⟩, s.results, s.isVariadic⟩)
    funcTypeFromSigM q

/-- `InterfaceMethod.ToTypeName` — model.go:1367-1377 — for the signature at `p`. `rt` is the type of the parent. -/
def methodToTypeNameM (p : Nat) (rt : MType) : MM MType := do
  let s ← loadSig p
  let l ← loadSlice s.args
  let a ← alloc (.array (.arg [] rt :: l))
  let l' ← loadSlice s.results
  let b ← alloc (.array l')
  let q ← alloc (.sig ⟨⟨a, 0, s.args.len + 1⟩, ⟨b, 0, s.results.len⟩, s.isVariadic⟩)
  funcTypeFromSigM q

/-! ### Programs -/

/-- What a program can do with signatures and types. Signatures and types get numbers in the order in which they are
made; these are the numbers below. -/
inductive SigCmd where
  /-- a new, empty signature: `NewFunc`, `NewMethod`, `NewInterfaceMethod`, `&Signature{}` -/
  | new
  | addArg (o : Nat) (name : GoString) (t : Nat)
  | addResult (o : Nat) (name : GoString) (t : Nat)
  | setVariadic (o : Nat) (b : Bool)
  /-- a file with the function or interface method is qualified -/
  | qualify (o : Nat)
  | nilType
  | basicType (k : ReflectKind)
  | namedType (s : Symbol)
  | pointerType (t : Nat)
  | sliceType (t : Nat)
  | arrayType (t : Nat) (length : Int)
  | mapType (key elem : Nat)
  | channelType (t : Nat) (d : ChanDir)
  /-- `StructType` of names, types and tags — types.go:743-745 -/
  | structType (fields : List (GoString × Nat × GoString))
  /-- `InterfaceType` of methods, given by name and signature, and embedded types — types.go:749-754 -/
  | interfaceType (methods : List (GoString × Nat)) (embeds : List Symbol)
  /-- `Imports.EnsureTypeImported` -/
  | ensureType (t : Nat)
  /-- `FuncTypeFromSig` and `FuncSpec.ToTypeName` of a function without receiver -/
  | funcType (o : Nat)
  /-- `FuncSpec.ToTypeName` of a method in a file of the given package (or in none) -/
  | methodType (o : Nat) (r : ReceiverSpec) (pkg : Option Package)
  /-- `InterfaceMethod.ToTypeName` if the type of the parent is the given one -/
  | interfaceMethodType (o : Nat) (t : Nat)
  /-- a copy of a signature, by an assignment to a variable of type `Signature` -/
  | copy (o : Nat)
  /-- `TypeName.Signature` of a function type — types.go:326 (of other types it is nil) -/
  | sigOf (t : Nat)

/-- The signatures and types of a program in memory. -/
structure SigRefs where
  objs : List Nat := []
  types : List MType := []

/-- The signature with a number. -/
def SigRefs.obj (r : SigRefs) (k : Nat) : MM Nat :=
  match r.objs[k]? with
  | some p => pure p
  | none => panic

/-- The type with a number. -/
def SigRefs.type (r : SigRefs) (k : Nat) : MM MType :=
  match r.types[k]? with
  | some t => pure t
  | none => panic

/-- One more signature. -/
def SigRefs.addObj (r : SigRefs) (p : Nat) : SigRefs := { r with objs := r.objs ++ [p] }

/-- One more type. -/
def SigRefs.addType (r : SigRefs) (t : MType) : SigRefs := { r with types := r.types ++ [t] }

/-- The fields of a struct type. -/
def SigRefs.fields (r : SigRefs) : List (GoString × Nat × GoString) → MM (List Elem)
  | [] => pure []
  | (name, t, tag) :: l => do
    let v ← r.type t
    let l ← r.fields l
    pure (.field name v tag :: l)

/-- The methods of an interface type. -/
def SigRefs.methods (r : SigRefs) : List (GoString × Nat) → MM (List Elem)
  | [] => pure []
  | (name, o) :: l => do
    let p ← r.obj o
    let s ← loadSig p
    let l ← r.methods l
    pure (.method name s :: l)

/-- What the commands do in memory. -/
def SigCmd.execM (g : Growth) (fuel : Nat) (r : SigRefs) : SigCmd → MM SigRefs
  | .new => do
    let p ← newSigM
    pure (r.addObj p)
  | .addArg o name t => do
    let p ← r.obj o
    let v ← r.type t
    sigAddArgM g p name v
    pure r
  | .addResult o name t => do
    let p ← r.obj o
    let v ← r.type t
    sigAddResultM g p name v
    pure r
  | .setVariadic o b => do
    let p ← r.obj o
    sigSetVariadicM p b
    pure r
  | .qualify o => do
    let p ← r.obj o
    sigQualifyM fuel p
    pure r
  | .nilType => pure (r.addType .nil)
  | .basicType k => do
    let v ← basicTypeM k
    pure (r.addType v)
  | .namedType s => do
    let v ← namedTypeM s
    pure (r.addType v)
  | .pointerType t => do
    let v ← r.type t
    let v ← pointerTypeM v
    pure (r.addType v)
  | .sliceType t => do
    let v ← r.type t
    let v ← sliceTypeM v
    pure (r.addType v)
  | .arrayType t n => do
    let v ← r.type t
    let v ← arrayTypeM v n
    pure (r.addType v)
  | .mapType k e => do
    let k ← r.type k
    let v ← r.type e
    let v ← mapTypeM k v
    pure (r.addType v)
  | .channelType t d => do
    let v ← r.type t
    let v ← channelTypeM v d
    pure (r.addType v)
  | .structType fields => do
    let l ← r.fields fields
    let a ← alloc (.array l)
    let p ← alloc (.struct ⟨a, 0, l.length⟩)
    pure (r.addType (.struct p))
  | .interfaceType methods embeds => do
    let l ← r.methods methods
    let a ← alloc (.array l)
    let b ← alloc (.array (embeds.map .sym))
    let p ← alloc (.interface ⟨a, 0, l.length⟩ ⟨b, 0, embeds.length⟩)
    pure (r.addType (.interface p))
  | .ensureType t => do
    let v ← r.type t
    let v ← ensureTypeImportedM fuel v
    pure (r.addType v)
  | .funcType o => do
    let p ← r.obj o
    let v ← funcToTypeNameM p none none
    pure (r.addType v)
  | .methodType o recv pkg => do
    let p ← r.obj o
    let v ← funcToTypeNameM p (some recv) pkg
    pure (r.addType v)
  | .interfaceMethodType o t => do
    let p ← r.obj o
    let rt ← r.type t
    let v ← methodToTypeNameM p rt
    pure (r.addType v)
  | .copy o => do
    let p ← r.obj o
    let s ← loadSig p
    let q ← alloc (.sig s)
    pure (r.addObj q)
  | .sigOf t => do
    let v ← r.type t
    match v with
    | .func p => pure (r.addObj p)
    | _ => panic

/-- What a program does in memory. -/
def runSigM (g : Growth) (fuel : Nat) : SigRefs → List SigCmd → MM SigRefs
  | r, [] => pure r
  | r, c :: cs => do
    let r ← c.execM g fuel r
    runSigM g fuel r cs

end Gopoet
