import Verif.Model.Memory
import Verif.Model.Template
/-!
# Qualification of template data with memory

templates.go once more, this time with pointers, slices and maps that may be shared or cyclic, and with the
stores by which new structs, arrays, slices and maps are filled. A `reflect.Value` is represented by what it
holds and by whether it is addressable. Go reads addressable values when it needs them, here they are read when
they are reached; nothing that was reached is ever stored to (see `Verif.Proof.DataFrame`).
Package-level specs are in the other heap (`Verif.Model.Heap`).
-/

namespace Gopoet
open MM

/-! ### Reading -/

/-- A part of a struct or array. -/
def DVal.at : DVal → List Nat → Option DVal
  | v, [] => some v
  | .struct fs, k :: ks => match fs[k]? with
    | some (_, v) => v.at ks
    | none => none
  | .array vs, k :: ks => match vs[k]? with
    | some v => v.at ks
    | none => none
  | _, _ :: _ => none

/-- A part of what is at an address. A `Signature` can be reached from data and from types. -/
def Cell.at : Cell → List Nat → Option DVal
  | .data v, path => v.at path
  | .sig s, [] => some (.signature s)
  | .array l, k :: ks => match l[k]? with
    | some (.data v) => v.at ks
    | _ => none
  | _, _ => none

/-- `*p` -/
def loadData (a : Nat) (path : List Nat) : MM DVal := do
  match (← load a).at path with
  | some v => pure v
  | none => panic

/-- `s[idx]` for a slice of data. -/
def loadDataElem (s : Slice) (idx : Nat) : MM DVal := do
  match ← loadElem s idx with
  | .data v => pure v
  | _ => panic

/-! ### Types that are converted from reflect and go/types -/

mutual
/-- A type is put into new memory, as the conversions in types.go do (`TypeNameForReflectType`, `TypeNameForGoType`
and the functions they use only allocate). -/
def buildType : TypeName → MM MType
  | .nil => pure .nil
  | .basic k => pure (.basic k)
  | .named s => do
    let p ← alloc (.named s)
    pure (.named p)
  | .ptr t => do
    let t ← buildType t
    pure (.ptr t)
  | .slice t => do
    let t ← buildType t
    pure (.slice t)
  | .array t n => do
    let t ← buildType t
    pure (.array t n)
  | .map t k => do
    let t ← buildType t
    let k ← buildType k
    pure (.map t k)
  | .chan t d => do
    let t ← buildType t
    pure (.chan t d)
  | .func s => do
    let s ← buildSig s
    let p ← alloc (.sig s)
    pure (.func p)
  | .struct fields => do
    let l ← buildFields fields
    let a ← alloc (.array l)
    let p ← alloc (.struct ⟨a, 0, l.length⟩)
    pure (.struct p)
  | .interface methods embeds => do
    let l ← buildMethods methods
    let a ← alloc (.array l)
    let b ← alloc (.array (embeds.map .sym))
    let p ← alloc (.interface ⟨a, 0, l.length⟩ ⟨b, 0, embeds.length⟩)
    pure (.interface p)
/-- see `buildType` -/
def buildSig : Signature → MM MSig
  | ⟨args, results, v⟩ => do
    let l ← buildArgs args
    let a ← alloc (.array l)
    let l' ← buildArgs results
    let b ← alloc (.array l')
    pure ⟨⟨a, 0, l.length⟩, ⟨b, 0, l'.length⟩, v⟩
/-- see `buildType` -/
def buildArgs : List ArgType → MM (List Elem)
  | [] => pure []
  | ⟨n, t⟩ :: l => do
    let t ← buildType t
    let l ← buildArgs l
    pure (.arg n t :: l)
/-- see `buildType` -/
def buildFields : List FieldType → MM (List Elem)
  | [] => pure []
  | ⟨n, t, tag⟩ :: l => do
    let t ← buildType t
    let l ← buildFields l
    pure (.field n t tag :: l)
/-- see `buildType` -/
def buildMethods : List MethodType → MM (List Elem)
  | [] => pure []
  | ⟨n, s⟩ :: l => do
    let s ← buildSig s
    let l ← buildMethods l
    pure (.method n s :: l)
end

/-! ### Results -/

/-- What `qualifyTemplateData` returns: the value; the address where it is if it is addressable (`CanAddr`; only
new values matter); whether it is a new value; and whether its type is another type than that of the argument,
because there is a pointer to the value in an interface instead of a pointer to the interface. For an interface,
`val` is what a variable of the interface's type holds after the result was stored to it, while `addr` is the
address of the value in the interface. -/
structure DRes where
  val : DVal
  addr : Option Nat
  changed : Bool
  retyped : Bool

/-- `return data, false` -/
def unchanged (v : DVal) : DRes := ⟨v, none, false, false⟩

/-- `return reflect.ValueOf(x), true` -/
def replaced (v : DVal) : DRes := ⟨v, none, true, false⟩

/-- `return reflect.ValueOf(&x).Elem(), true` -/
def replacedAt (v : DVal) : MM DRes := do
  let a ← alloc (.data v)
  pure ⟨v, some a, true, false⟩

/-- The value in an interface. -/
def DVal.inIface : DVal → DVal
  | .iface _ v => v
  | v => v

/-- The variable has an interface type. -/
def DVal.isIface : DVal → Bool
  | .iface _ _ => true
  | _ => false

/-! ### Structs, arrays and slices -/

/-- What is built. For structs: which fields are exported. -/
inductive Shape where
  | struct (exported : List Bool)
  | array
  | slice

/-- The memory of a new struct or array, or of the array of a new slice. -/
def Shape.cell : Shape → List DVal → Cell
  | .struct exported, l => .data (.struct (exported.zip l))
  | .array, l => .data (.array l)
  | .slice, l => .array (l.map .data)

/-- The fields or elements in such memory. -/
def Shape.parts : Shape → Cell → Option (List DVal)
  | .struct _, .data (.struct fs) => some (fs.map (·.2))
  | .array, .data (.array l) => some l
  | .slice, .array l => l.mapM fun
    | .data v => some v
    | _ => none
  | _, _ => none

/-- The field is unexported. -/
def Shape.hides : Shape → Nat → Bool
  | .struct exported, idx => exported[idx]? == some false
  | _, _ => false

/-- `data.Slice(0, i)` works: not for an array that is not addressable. -/
def Shape.sliceable : Shape → Bool → Bool
  | .array, addr => addr
  | _, _ => true

/-- `x.Field(idx).Set(v)` and `x.Index(idx).Set(v)`, for `x` at address `a`. -/
def setPart (shape : Shape) (a idx : Nat) (v : DVal) : MM Unit :=
  if shape.hides idx then panic
  else do
    match shape.parts (← load a) with
    | some l => if idx < l.length then store a (shape.cell (l.set idx v)) else panic
    | none => panic

/-- `Set` with what qualification returned; it panics if the type is wrong. -/
def setRes (shape : Shape) (a idx : Nat) (r : DRes) : MM Unit :=
  if r.retyped then panic else setPart shape a idx r.val

/-- The `n` fields or elements from `idx` on are taken over — templates.go:165-167 and 197 (`reflect.Copy`). -/
def copyParts (shape : Shape) (get : Nat → MM DVal) (a : Nat) : Nat → Nat → MM Unit
  | 0, _ => pure ()
  | n + 1, idx => do
    let v ← get idx
    setPart shape a idx v
    copyParts shape get a n (idx + 1)

/-- The loops over fields — templates.go:148-170 — and elements — templates.go:187-200 — for `n` of them from
`idx` on; `total` is the number of all. `get` reads one, `q` qualifies it. `new` is `newStruct` or `newArray`.
`getField` (templates_unsafe.go:12-26) needs the address of an unexported field. -/
def partsLoop (shape : Shape) (addr : Bool) (get : Nat → MM DVal) (q : DVal → MM DRes) (total : Nat) :
    Nat → Nat → Option Nat → MM (Option Nat)
  | 0, _, new => pure new
  | n + 1, idx, new =>
    if shape.hides idx && !addr then panic
    else do
      let v ← get idx
      let r ← q v
      match new with
      | some a => do
        setRes shape a idx r
        partsLoop shape addr get q total n (idx + 1) (some a)
      | none =>
        if r.changed then
          if shape.sliceable addr then do
            let a ← alloc (shape.cell (List.replicate total (.scalar 0)))
            copyParts shape get a idx 0
            setRes shape a idx r
            partsLoop shape addr get q total n (idx + 1) (some a)
          else panic
        else partsLoop shape addr get q total n (idx + 1) none

/-- The parts of a struct or array that was read already. -/
def partOf (l : List DVal) (idx : Nat) : MM DVal :=
  match l[idx]? with
  | some v => pure v
  | none => panic

/-! ### Maps -/

mutual
/-- Equality of map keys. -/
def DVal.keyEq : DVal → DVal → Bool
  | .scalar a, .scalar b => a == b
  | .package a, .package b => decide (a = b)
  | .symbol a, .symbol b => decide (a = b)
  | .mref a, .mref b => decide (a = b)
  | .embed a, .embed b => decide (a = b)
  | .typeName a, .typeName b => decide (a = b)
  | .reflectType a _, .reflectType b _ => a == b
  | .goType a _, .goType b _ => a == b
  | .goObject a _, .goObject b _ => a == b
  | .goPackage a _, .goPackage b _ => a == b
  | .ptr a l, .ptr b l' => a == b && l == l'
  | .iface _ a, .iface _ b => a.keyEq b
  | .struct a, .struct b => keyEqFieldsM a b
  | .array a, .array b => keyEqElemsM a b
  | _, _ => false
/-- see `DVal.keyEq` -/
def keyEqFieldsM : List (Bool × DVal) → List (Bool × DVal) → Bool
  | [], [] => true
  | (_, a) :: l, (_, b) :: l' => a.keyEq b && keyEqFieldsM l l'
  | _, _ => false
/-- see `DVal.keyEq` -/
def keyEqElemsM : List DVal → List DVal → Bool
  | [], [] => true
  | a :: l, b :: l' => a.keyEq b && keyEqElemsM l l'
  | _, _ => false
end

/-- The map with one more entry. -/
def setEntry (m : List (DVal × DVal)) (k v : DVal) : List (DVal × DVal) :=
  match m with
  | [] => [(k, v)]
  | e :: m => if e.1.keyEq k then (e.1, v) :: m else e :: setEntry m k v

/-- `SetMapIndex` -/
def setMapIndexM (a : Nat) (k v : DVal) : MM Unit := do
  match ← load a with
  | .map es => store a (.map (setEntry es k v))
  | _ => panic

/-- `SetMapIndex` with what qualification returned; it panics if a type is wrong. -/
def setMapRes (a : Nat) (k v : DRes) : MM Unit :=
  if k.retyped || v.retyped then panic else setMapIndexM a k.val v.val

/-- The loop over `seenKeys` — templates.go:215-217. -/
def copyEntries (a : Nat) : List (DVal × DVal) → MM Unit
  | [] => pure ()
  | (k, v) :: es => do
    setMapIndexM a k v
    copyEntries a es

/-- The loop over the entries — templates.go:208-223. `seen` are the entries for `seenKeys`. -/
def entriesLoop (q : DVal → MM DRes) :
    List (DVal × DVal) → List (DVal × DVal) → Option Nat → MM (Option Nat)
  | [], _, new => pure new
  | (k, v) :: es, seen, new => do
    let rk ← q k
    let rv ← q v
    match new with
    | some a => do
      setMapRes a rk rv
      entriesLoop q es seen (some a)
    | none =>
      if rk.changed || rv.changed then do
        let a ← alloc (.map [])
        copyEntries a seen
        setMapRes a rk rv
        entriesLoop q es [] (some a)
      else entriesLoop q es (seen ++ [(k, v)]) none

/-! ### qualifyTemplateData -/

/-- A type in an interface — templates.go:13-29, 55-66. -/
def qualifyConvertedM (fuel : Nat) (acc : Accepts) (orig : DVal) (t : MType) : MM DRes := do
  let t' ← ensureTypeImportedM fuel t
  if t' ≠ t ∧ acc.typeName then pure (replaced (.iface acc (.typeName t'))) else pure (unchanged orig)

/-- `types.Object` in an interface — templates.go:30-45, 55-66. -/
def qualifyObjectM (acc : Accepts) (orig : DVal) : SymbolOrMethodRef → MM DRes
  | .symbol s => do
    let s' ← onImports (Imports.ensureImported s)
    if s' ≠ s ∧ acc.symbol then pure (replaced (.iface acc (.symbol s'))) else pure (unchanged orig)
  | .method m => do
    let s' ← onImports (Imports.ensureImported m.type)
    if s' ≠ m.type ∧ acc.mref then do
      let a ← alloc (.data (.mref { type := s', method := m.method }))
      pure (replaced (.iface acc (.ptr a [])))
    else pure (unchanged orig)

/-- What stands for a package-level spec — templates.go:95-134. -/
def qualifySpecInM (r : SpecRef) (orig : DVal) (pkg : Package) : MM DRes := do
  let newPkg ← onImports (Imports.registerPackage pkg)
  if newPkg ≠ pkg.name then replacedAt (.specCopy r newPkg) else pure (unchanged orig)

/-- `qualifyTemplateData` — templates.go:8-230. The recursion is bounded by `fuel`; data can be cyclic, and then
Go does not return, either. -/
def qualifyD (h : Heap) : Nat → Bool → DVal → MM DRes
  | 0, _, _ => hang
  | fuel + 1, addr, d =>
    match d with
    | .iface acc v =>
      match v with
      | .typeName t => qualifyConvertedM fuel acc d t
      | .reflectType _ t => do
        let t ← onImports (IM.lift (typeNameForReflectType t))
        let t ← buildType t
        qualifyConvertedM fuel acc d t
      | .goType _ t => do
        let t ← onImports (IM.lift (typeNameForGoType t))
        let t ← buildType t
        qualifyConvertedM fuel acc d t
      | .goObject _ o => do
        let sm ← onImports (IM.lift (symbolForGoObject o))
        qualifyObjectM acc d sm
      | .goPackage _ g => do
        let p ← onImports (IM.lift (packageForGoType (some g)))
        let n ← onImports (Imports.registerPackage p)
        if n ≠ p.name ∧ acc.package then
          pure (replaced (.iface acc (.package { name := n, importPath := p.importPath })))
        else pure (unchanged d)
      | v => do
        let r ← qualifyD h fuel false v
        if r.changed then pure { r with val := .iface acc r.val, retyped := false } else pure (unchanged d)
    | .package p => do
      let n ← onImports (Imports.registerPackage p)
      if n ≠ p.name then replacedAt (.package { name := n, importPath := p.importPath }) else pure (unchanged d)
    | .symbol s => do
      let s' ← onImports (Imports.ensureImported s)
      if s' ≠ s then replacedAt (.symbol s') else pure (unchanged d)
    | .mref m => do
      let s' ← onImports (Imports.ensureImported m.type)
      if s' ≠ m.type then replacedAt (.mref { type := s', method := m.method }) else pure (unchanged d)
    | .signature s => do
      -- `t` is a copy, `oldSig` its address
      let oldSig ← alloc (.sig s)
      let newSig ← ensureAllTypesImportedM fuel oldSig
      if newSig ≠ oldSig then do
        let s' ← loadSig newSig
        pure ⟨.signature s', some newSig, true, false⟩
      else pure (unchanged d)
    | .spec r => do
      let parent ← onImports (IM.lift (r.parent h))
      match parent with
      | none => pure (unchanged d)
      | some f => do
        let f ← onImports (IM.lift (deref h.files f))
        qualifySpecInM r d f.package
    | .specCopy r pkg => qualifySpecInM r d { name := pkg, importPath := [] }
    | .embed e => do
      -- `newEmbed` is a copy; `InterfaceEmbed.qualify` (model.go:1306-1310) stores to it
      let newEmbed ← alloc (.data (.embed e))
      let s ← onImports (Imports.ensureImported e.type)
      store newEmbed (.data (.embed { e with type := s }))
      if e.type ≠ s then pure ⟨.embed { e with type := s }, some newEmbed, true, false⟩ else pure (unchanged d)
    | .method m => do
      -- `newMethod` is a copy; `InterfaceMethod.qualify` (model.go:1411-1418) stores to it. It is represented
      -- by two addresses here, because its field `Signature` needs one.
      let sig ← alloc (.sig m.sig)
      let newMethod ← alloc (.data (.method m))
      let newSig ← ensureAllTypesImportedM fuel sig
      if newSig ≠ sig then do
        let s ← loadSig newSig
        store newMethod (.data (.method { m with sig := s }))
        pure ⟨.method { m with sig := s }, some newMethod, true, false⟩
      else pure (unchanged d)
    | .ptr a path => do
      let v ← loadData a path
      let r ← qualifyD h fuel true v
      if r.changed then
        match r.addr with
        | some b => pure ⟨.ptr b [], none, true, v.isIface || r.retyped⟩
        | none => do
          let dest ← alloc (.data (.scalar 0))
          store dest (.data r.val.inIface)
          pure ⟨.ptr dest [], none, true, v.isIface || r.retyped⟩
      else pure (unchanged d)
    | .struct fs => do
      let vs := fs.map (·.2)
      match ← partsLoop (.struct (fs.map (·.1))) addr (partOf vs) (qualifyD h fuel addr) vs.length vs.length 0 none with
      | some a => do
        let v ← loadData a []
        pure ⟨v, some a, true, false⟩
      | none => pure (unchanged d)
    | .array vs => do
      match ← partsLoop .array addr (partOf vs) (qualifyD h fuel addr) vs.length vs.length 0 none with
      | some a => do
        let v ← loadData a []
        pure ⟨v, some a, true, false⟩
      | none => pure (unchanged d)
    | .slice s => do
      match ← partsLoop .slice true (loadDataElem s) (qualifyD h fuel true) s.len s.len 0 none with
      | some a => pure (replaced (.slice ⟨a, 0, s.len⟩))
      | none => pure (unchanged d)
    | .map a => do
      match ← load a with
      | .map es => do
        match ← entriesLoop (qualifyD h fuel false) es [] none with
        | some b => pure (replaced (.map b))
        | none => pure (unchanged d)
      | _ => panic
    | _ => pure (unchanged d)

/-- `Imports.QualifyTemplateData` — imports.go:326-337: the data is put into a new slice of `interface{}`; its
element is qualified. -/
def qualifyTemplateDataM (h : Heap) (fuel : Nat) (data : DVal) : MM DVal := do
  let a ← alloc (.array [.data (.iface acceptsAll data)])
  let d ← loadDataElem ⟨a, 0, 1⟩ 0
  let r ← qualifyD h fuel true d
  pure r.val.inIface

end Gopoet
