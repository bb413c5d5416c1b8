import Verif.Model.Template
/-!
# Model of templates.go with templates_no_unsafe.go

With the build tags `appengine`, `gopherjs` or `purego` the function `getField` is that of
templates_no_unsafe.go:11-16, which returns false for unexported fields. Everything else is as in
`Verif.Model.Template`.
-/

namespace Gopoet

mutual
/-- `qualifyTemplateData` — templates.go:8-230. Only the cases that lead to other values are spelled
out; the others do not depend on the build. -/
def qualifyDataPure (h : Heap) (addr : Bool) : TVal → IM (TVal × Bool)
  | .iface acc v =>
    match v with
    | .typeName t => qualifyData h addr (.iface acc (.typeName t))
    | .reflectType t => qualifyData h addr (.iface acc (.reflectType t))
    | .goType t => qualifyData h addr (.iface acc (.goType t))
    | .goObject o => qualifyData h addr (.iface acc (.goObject o))
    | .goPackage g => qualifyData h addr (.iface acc (.goPackage g))
    | v => do
      let (v', c) ← qualifyDataPure h false v
      pure (.iface acc v', c)
  | .ptr v => do
    let (v', c) ← qualifyDataPure h true v
    pure (.ptr (if c then v'.inIface else v'), c)
  | .struct fs => do
    let (fs', c) ← qualifyDataFieldsPure h addr false false fs
    pure (.struct fs', c)
  | .array vs => do
    let (vs', c) ← qualifyDataElemsPure h addr addr false vs
    pure (.array vs', c)
  | .slice vs => do
    let (vs', c) ← qualifyDataElemsPure h true true false vs
    pure (.slice vs', c)
  | .map es => do
    let (es', c) ← qualifyDataEntriesPure h es
    if c then pure (.map (es'.foldl (fun m e => setMapIndex m e.1 e.2) []), true)
    else pure (.map es, false)
  | v => qualifyData h addr v

/-- the loop over the fields of a struct — templates.go:148-172: unexported fields are not looked at
(templates.go:153-156), but `Set` still panics on them when a new struct is made. -/
def qualifyDataFieldsPure (h : Heap) (addr changed hidden : Bool) :
    List (Bool × TVal) → IM (List (Bool × TVal) × Bool)
  | [] => pure ([], changed)
  | (true, v) :: fs => do
    let (v', c) ← qualifyDataPure h addr v
    if (!changed && c && hidden) || (c && v.ifacePtr) then IM.panic
    else do
      let (fs', c') ← qualifyDataFieldsPure h addr (changed || c) hidden fs
      pure ((true, v') :: fs', c')
  | (false, v) :: fs =>
    if changed then IM.panic
    else do
      let (fs', c') ← qualifyDataFieldsPure h addr changed true fs
      pure ((false, v) :: fs', c')

/-- the loop over the elements of an array or slice — templates.go:185-203. -/
def qualifyDataElemsPure (h : Heap) (addr sliceable changed : Bool) :
    List TVal → IM (List TVal × Bool)
  | [] => pure ([], changed)
  | v :: vs => do
    let (v', c) ← qualifyDataPure h addr v
    if (!changed && c && !sliceable) || (c && v.ifacePtr) then IM.panic
    else do
      let (vs', c') ← qualifyDataElemsPure h addr sliceable (changed || c) vs
      pure (v' :: vs', c')

/-- the loop over the entries of a map — templates.go:205-226. -/
def qualifyDataEntriesPure (h : Heap) : List (TVal × TVal) → IM (List (TVal × TVal) × Bool)
  | [] => pure ([], false)
  | (k, v) :: es => do
    let (k', ck) ← qualifyDataPure h false k
    let (v', cv) ← qualifyDataPure h false v
    if (ck && k.ifacePtr) || (cv && v.ifacePtr) then IM.panic
    else do
      let (es', c) ← qualifyDataEntriesPure h es
      pure ((k', v') :: es', ck || cv || c)
end

/-- `Imports.QualifyTemplateData` — imports.go:326-337. -/
def qualifyTemplateDataPure (h : Heap) (data : TVal) : IM TVal := do
  let (r, _) ← qualifyDataPure h true (.iface acceptsAll data)
  match r with
  | .iface _ v => pure v
  | v => pure v

end Gopoet
