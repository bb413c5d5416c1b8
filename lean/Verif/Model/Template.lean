import Verif.Model.Heap
/-!
# Model of templates.go and `Imports.QualifyTemplateData` (imports.go:326-337)

The parameter `addr` tells whether the `reflect.Value` is addressable. Values whose static type is
a go/types or reflect type (not in an interface) are not represented.
-/

namespace Gopoet
open Imports

mutual
/-- Equality of map keys. The type of a struct or an array, which matters in interfaces, counts as one more
field or element (a scalar). Pointers, and types in interfaces, are never equal here: the keys of a map are
different, and what is new in a changed map is at fresh addresses. (So keys that contain the same pointer next
to references that become the same reference are treated as different; `Verif.Model.DataMemory` does better.) -/
def TVal.keyEq : TVal → TVal → Bool
  | .scalar a, .scalar b => a == b
  | .package a, .package b => decide (a = b)
  | .symbol a, .symbol b => decide (a = b)
  | .mref a, .mref b => decide (a = b)
  | .embed a, .embed b => decide (a = b)
  | .iface _ a, .iface _ b => a.keyEq b
  | .struct a, .struct b => keyEqFields a b
  | .array a, .array b => keyEqElems a b
  | _, _ => false
/-- see `TVal.keyEq` -/
def keyEqFields : List (Bool × TVal) → List (Bool × TVal) → Bool
  | [], [] => true
  | (_, a) :: l, (_, b) :: l' => a.keyEq b && keyEqFields l l'
  | _, _ => false
/-- see `TVal.keyEq` -/
def keyEqElems : List TVal → List TVal → Bool
  | [], [] => true
  | a :: l, b :: l' => a.keyEq b && keyEqElems l l'
  | _, _ => false
end

/-- `SetMapIndex`. -/
def setMapIndex (m : List (TVal × TVal)) (k v : TVal) : List (TVal × TVal) :=
  match m with
  | [] => [(k, v)]
  | e :: m => if e.1.keyEq k then (e.1, v) :: m else e :: setMapIndex m k v

/-- What stands for a package-level spec — templates.go:95-134: with parent `&GoFile` of package
`pkg`, the spec's package is registered; if its name changes, a copy with a made-up parent results. -/
def qualifySpecIn (r : SpecRef) (orig : TVal) (pkg : Package) : IM (TVal × Bool) := do
  let newPkg ← registerPackage pkg
  if newPkg ≠ pkg.name then pure (.specCopy r newPkg, true) else pure (orig, false)

/-- The `parent` field of a spec. -/
def SpecRef.parent (h : Heap) : SpecRef → Outcome (Option Ptr)
  | .value p => (deref h.values p).bind fun s => .ok s.parent
  | .type p => (deref h.types p).bind fun s => .ok s.parent
  | .func p => (deref h.funcs p).bind fun s => .ok s.parent

/-- `InterfaceEmbed.qualify` — model.go:1306-1310 — on a copy. -/
def InterfaceEmbed.qualify (e : InterfaceEmbed) : IM (InterfaceEmbed × Bool) := do
  let s ← ensureImported e.type
  pure ({ e with type := s }, decide (e.type ≠ s))

/-- `InterfaceMethod.qualify` — model.go:1411-1418 — on a copy. -/
def InterfaceMethod.qualify (m : InterfaceMethod) : IM (InterfaceMethod × Bool) := do
  let (sig, c) ← qualifySignature true m.signature
  pure ({ m with signature := sig }, c)

/-- The part of the interface case — templates.go:11-65 — for a type that was converted to a
`TypeName`. -/
def qualifyConverted (acc : Accepts) (orig : TVal) (t : Outcome TypeName) : IM (TVal × Bool) := do
  let t ← IM.lift t
  let (t', c) ← qualifyType true t
  if c && acc.typeName then pure (.iface acc (.typeName t'), true) else pure (orig, false)

/-- `types.Object` in an interface — templates.go:32-45. -/
def qualifyObject (acc : Accepts) (orig : TVal) : SymbolOrMethodRef → IM (TVal × Bool)
  | .symbol s => do
    let s' ← ensureImported s
    if s' ≠ s ∧ acc.symbol then pure (.iface acc (.symbol s'), true) else pure (orig, false)
  | .method m => do
    let s' ← ensureImported m.type
    if s' ≠ m.type ∧ acc.mref then
      pure (.iface acc (.ptr (.mref { type := s', method := m.method })), true)
    else pure (orig, false)

/-- The value in an interface, as the interface case returns it. -/
def TVal.inIface : TVal → TVal
  | .iface _ v => v
  | v => v

/-- The type of the value is a pointer to an interface, or a pointer to such a pointer and so on. A new
value for it has another type (templates.go:176-183: the pointer is made from the value that is in the
interface), so that `Set` and `SetMapIndex` panic unless they store into an interface. -/
def TVal.ifacePtr : TVal → Bool
  | .ptr (.iface _ _) => true
  | .ptr v => v.ifacePtr
  | _ => false

mutual
/-- `qualifyTemplateData` — templates.go:8-230. The Boolean tells whether a new value is
returned. -/
def qualifyData (h : Heap) (addr : Bool) : TVal → IM (TVal × Bool)
  | .iface acc v =>
    match v with
    | .typeName t => qualifyConverted acc (.iface acc (.typeName t)) (.ok t)
    | .reflectType t => qualifyConverted acc (.iface acc (.reflectType t)) (typeNameForReflectType t)
    | .goType t => qualifyConverted acc (.iface acc (.goType t)) (typeNameForGoType t)
    | .goObject o => do
      let sm ← IM.lift (symbolForGoObject o)
      qualifyObject acc (.iface acc (.goObject o)) sm
    | .goPackage g => do
      let p ← IM.lift (packageForGoType (some g))
      let n ← registerPackage p
      if n ≠ p.name ∧ acc.package then
        pure (.iface acc (.package { name := n, importPath := p.importPath }), true)
      else pure (.iface acc (.goPackage g), false)
    | v => do
      let (v', c) ← qualifyData h false v
      pure (.iface acc v', c)
  | .package p => do
    let n ← registerPackage p
    if n ≠ p.name then pure (.package { name := n, importPath := p.importPath }, true)
    else pure (.package p, false)
  | .symbol s => do
    let s' ← ensureImported s
    pure (.symbol s', decide (s' ≠ s))
  | .mref m => do
    let s' ← ensureImported m.type
    pure (.mref { type := s', method := m.method }, decide (s' ≠ m.type))
  | .signature s => do
    let (s', c) ← qualifySignature true s
    pure (.signature s', c)
  | .spec r => do
    let parent ← IM.lift (r.parent h)
    match parent with
    | none => pure (.spec r, false)
    | some f => do
      let f ← IM.lift (deref h.files f)
      qualifySpecIn r (.spec r) f.package
  | .specCopy r pkg => qualifySpecIn r (.specCopy r pkg) { name := pkg, importPath := [] }
  | .embed e => do
    let (e', c) ← e.qualify
    pure (.embed e', c)
  | .method m => do
    let (m', c) ← m.qualify
    pure (.method m', c)
  | .ptr v => do
    let (v', c) ← qualifyData h true v
    pure (.ptr (if c then v'.inIface else v'), c)
  | .struct fs => do
    let (fs', c) ← qualifyDataFields h addr false false fs
    pure (.struct fs', c)
  | .array vs => do
    let (vs', c) ← qualifyDataElems h addr addr false vs
    pure (.array vs', c)
  | .slice vs => do
    let (vs', c) ← qualifyDataElems h true true false vs
    pure (.slice vs', c)
  | .map es => do
    let (es', c) ← qualifyDataEntries h es
    if c then pure (.map (es'.foldl (fun m e => setMapIndex m e.1 e.2) []), true)
    else pure (.map es, false)
  | v => pure (v, false)

/-- the loop over the fields of a struct — templates.go:148-172 and templates_unsafe.go:12-26.
`changed` tells whether there already is a new struct, `hidden` whether an earlier field is
unexported: `UnsafeAddr` panics on an unaddressable field, `Set` on an unexported one. -/
def qualifyDataFields (h : Heap) (addr changed hidden : Bool) :
    List (Bool × TVal) → IM (List (Bool × TVal) × Bool)
  | [] => pure ([], changed)
  | (exported, v) :: fs =>
    if !exported && !addr then IM.panic
    else do
      let (v', c) ← qualifyData h addr v
      if (changed && !exported) || (!changed && c && (hidden || !exported)) || (c && v.ifacePtr) then IM.panic
      else do
        let (fs', c') ← qualifyDataFields h addr (changed || c) (hidden || !exported) fs
        pure ((exported, v') :: fs', c')

/-- the loop over the elements of an array or slice — templates.go:185-203. `sliceable` tells
whether `data.Slice(0, i)` works (not for an unaddressable array). -/
def qualifyDataElems (h : Heap) (addr sliceable changed : Bool) :
    List TVal → IM (List TVal × Bool)
  | [] => pure ([], changed)
  | v :: vs => do
    let (v', c) ← qualifyData h addr v
    if (!changed && c && !sliceable) || (c && v.ifacePtr) then IM.panic
    else do
      let (vs', c') ← qualifyDataElems h addr sliceable (changed || c) vs
      pure (v' :: vs', c')

/-- the loop over the entries of a map — templates.go:205-226 — without the construction of the new
map. -/
def qualifyDataEntries (h : Heap) : List (TVal × TVal) → IM (List (TVal × TVal) × Bool)
  | [] => pure ([], false)
  | (k, v) :: es => do
    let (k', ck) ← qualifyData h false k
    let (v', cv) ← qualifyData h false v
    if (ck && k.ifacePtr) || (cv && v.ifacePtr) then IM.panic
    else do
      let (es', c) ← qualifyDataEntries h es
      pure ((k', v') :: es', ck || cv || c)
end

/-- `Imports.QualifyTemplateData` — imports.go:326-337: the data is viewed as an (addressable)
`interface{}`. -/
def qualifyTemplateData (h : Heap) (data : TVal) : IM TVal := do
  let (r, _) ← qualifyData h true (.iface acceptsAll data)
  match r with
  | .iface _ v => pure v
  | v => pure v

end Gopoet
