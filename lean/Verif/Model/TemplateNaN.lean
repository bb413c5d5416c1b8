import Verif.Model.Template
/-!
# Model of templates.go for data with NaN in the keys of maps

`Verif.Model.Template` takes keys of maps to be equal to themselves. A floating-point NaN is not, so
that `data.MapIndex(k)` returns the zero `Value` for a key `k` that contains one (templates.go:210, 216).
Here `nan` tells which scalars are NaN. Everything else is as in `Verif.Model.Template`.
-/

namespace Gopoet

mutual
/-- The value is not equal to itself, by Go's `==`: it is or contains a NaN. Pointers are compared by
address. -/
def TVal.hasNaN (nan : Nat → Bool) : TVal → Bool
  | .scalar n => nan n
  | .iface _ v => v.hasNaN nan
  | .struct fs => hasNaNFields nan fs
  | .array vs => hasNaNElems nan vs
  | _ => false
/-- see `TVal.hasNaN` -/
def hasNaNFields (nan : Nat → Bool) : List (Bool × TVal) → Bool
  | [] => false
  | (_, v) :: fs => v.hasNaN nan || hasNaNFields nan fs
/-- see `TVal.hasNaN` -/
def hasNaNElems (nan : Nat → Bool) : List TVal → Bool
  | [] => false
  | v :: vs => v.hasNaN nan || hasNaNElems nan vs
end

mutual
/-- `qualifyTemplateData` — templates.go:8-230. Only the cases that lead to other values are spelled
out; the others are those of `qualifyData`. -/
def qualifyDataNaN (nan : Nat → Bool) (h : Heap) (addr : Bool) : TVal → IM (TVal × Bool)
  | .iface acc v =>
    match v with
    | .typeName t => qualifyData h addr (.iface acc (.typeName t))
    | .reflectType t => qualifyData h addr (.iface acc (.reflectType t))
    | .goType t => qualifyData h addr (.iface acc (.goType t))
    | .goObject o => qualifyData h addr (.iface acc (.goObject o))
    | .goPackage g => qualifyData h addr (.iface acc (.goPackage g))
    | v => do
      let (v', c) ← qualifyDataNaN nan h false v
      pure (.iface acc v', c)
  | .ptr v => do
    let (v', c) ← qualifyDataNaN nan h true v
    pure (.ptr (if c then v'.inIface else v'), c)
  | .struct fs => do
    let (fs', c) ← qualifyDataFieldsNaN nan h addr false false fs
    pure (.struct fs', c)
  | .array vs => do
    let (vs', c) ← qualifyDataElemsNaN nan h addr addr false vs
    pure (.array vs', c)
  | .slice vs => do
    let (vs', c) ← qualifyDataElemsNaN nan h true true false vs
    pure (.slice vs', c)
  | .map es => do
    let (es', c) ← qualifyDataEntriesNaN nan h es
    if c then pure (.map (es'.foldl (fun m e => setMapIndex m e.1 e.2) []), true)
    else pure (.map es, false)
  | v => qualifyData h addr v

/-- the loop over the fields of a struct — templates.go:148-172 and templates_unsafe.go:12-26; see
`qualifyDataFields`. -/
def qualifyDataFieldsNaN (nan : Nat → Bool) (h : Heap) (addr changed hidden : Bool) :
    List (Bool × TVal) → IM (List (Bool × TVal) × Bool)
  | [] => pure ([], changed)
  | (exported, v) :: fs =>
    if !exported && !addr then IM.panic
    else do
      let (v', c) ← qualifyDataNaN nan h addr v
      if (changed && !exported) || (!changed && c && (hidden || !exported)) || (c && v.ifacePtr) then IM.panic
      else do
        let (fs', c') ← qualifyDataFieldsNaN nan h addr (changed || c) (hidden || !exported) fs
        pure ((exported, v') :: fs', c')

/-- the loop over the elements of an array or slice — templates.go:185-203. -/
def qualifyDataElemsNaN (nan : Nat → Bool) (h : Heap) (addr sliceable changed : Bool) :
    List TVal → IM (List TVal × Bool)
  | [] => pure ([], changed)
  | v :: vs => do
    let (v', c) ← qualifyDataNaN nan h addr v
    if (!changed && c && !sliceable) || (c && v.ifacePtr) then IM.panic
    else do
      let (vs', c') ← qualifyDataElemsNaN nan h addr sliceable (changed || c) vs
      pure (v' :: vs', c')

/-- the loop over the entries of a map — templates.go:205-226. For a key with NaN in it, `MapIndex`
returns the zero `Value`, of kind `Invalid`, which is returned unchanged (templates.go:229), and
`SetMapIndex` with the zero `Value` deletes: nothing, because the key is not found. The entries that are
returned are those that a new map gets. -/
def qualifyDataEntriesNaN (nan : Nat → Bool) (h : Heap) :
    List (TVal × TVal) → IM (List (TVal × TVal) × Bool)
  | [] => pure ([], false)
  | (k, v) :: es => do
    let (k', ck) ← qualifyDataNaN nan h false k
    if k.hasNaN nan then
      if ck && k.ifacePtr then IM.panic
      else do
        let (es', c) ← qualifyDataEntriesNaN nan h es
        pure (es', ck || c)
    else do
      let (v', cv) ← qualifyDataNaN nan h false v
      if (ck && k.ifacePtr) || (cv && v.ifacePtr) then IM.panic
      else do
        let (es', c) ← qualifyDataEntriesNaN nan h es
        pure ((k', v') :: es', ck || cv || c)
end

/-- `Imports.QualifyTemplateData` — imports.go:326-337. -/
def qualifyTemplateDataNaN (nan : Nat → Bool) (h : Heap) (data : TVal) : IM TVal := do
  let (r, _) ← qualifyDataNaN nan h true (.iface acceptsAll data)
  match r with
  | .iface _ v => pure v
  | v => pure v

end Gopoet
