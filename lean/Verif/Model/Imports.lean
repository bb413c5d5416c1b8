import Verif.Model.Types
/-!
# Model of imports.go (without QualifyTemplateData, see `Verif.Model.Template`)
-/

namespace Gopoet

/-- `importDef` — imports.go:23-26. -/
structure ImportDef where
  packageName : GoString
  isAlias : Bool
  deriving DecidableEq, Repr

/-- `Imports` — imports.go:17-21. The lazily allocated nil maps (imports.go:90-93) are modelled
as empty maps: reading a nil map behaves like reading an empty one. -/
structure Imports where
  pkgPath : GoString
  importsByPath : GoMap GoString ImportDef
  pathsByName : GoMap GoString GoString
  deriving DecidableEq, Repr

/-- `NewImportsFor` — imports.go:31-33. -/
def newImportsFor (pkgPath : GoString) : Imports :=
  { pkgPath, importsByPath := [], pathsByName := [] }

/-- A method on `*Imports` that may panic: returns the outcome and the (possibly modified)
Imports. Modifications made before a panic persist. -/
def IM (α : Type) := Imports → Outcome α × Imports

namespace IM

def ret {α} (a : α) : IM α := fun i => (.ok a, i)
def panic {α} : IM α := fun i => (.panic, i)

def bind {α β} (x : IM α) (f : α → IM β) : IM β := fun i =>
  match x i with
  | (.ok a, i') => f a i'
  | (.panic, i') => (.panic, i')
  | (.hang, i') => (.hang, i')

/-- A call to a function that does not use the Imports. -/
def lift {α} (x : Outcome α) : IM α := fun i => (x, i)

instance : Monad IM where
  pure := ret
  bind := bind

end IM

namespace Imports

/-- The loop of `prefixForPackage` — imports.go:88-103, up to the point where a free name `p` is
found. The Go loop is unbounded; `fuel` bounds the number of probes and `none` means "no free
name found yet". -/
def aliasLoop (pathsByName : GoMap GoString GoString) (pkgBase : GoString) :
    (fuel : Nat) → (p : GoString) → (suffix : Nat) → Option GoString
  | 0, _, _ => none
  | fuel + 1, p, suffix =>
    match pathsByName.get p with
    | none => some p
    | some _ => aliasLoop pathsByName pkgBase fuel (pkgBase ++ decDigits suffix) (suffix + 1)

/-- `prefixForPackage` — imports.go:70-104. -/
def prefixForPackage (importPath packageName : GoString) (registerIfNotFound : Bool) :
    IM GoString := fun i =>
  if importPath = i.pkgPath then (.ok [], i)
  else
    match i.importsByPath.get importPath with
    | some ex => (.ok (ex.packageName ++ b! "."), i)
    | none =>
      if !registerIfNotFound then (.panic, i)
      else
        let p := if packageName = [] then pathBase importPath else packageName
        match aliasLoop i.pathsByName p (i.pathsByName.length + 1) p 1 with
        | none => (.hang, i)
        | some p =>
          (.ok (p ++ b! "."),
            { i with
              pathsByName := i.pathsByName.set p importPath
              importsByPath := i.importsByPath.set importPath
                { packageName := p, isAlias := decide (p ≠ packageName) } })

/-- `RegisterImport` — imports.go:60-62. -/
def registerImport (importPath packageName : GoString) : IM GoString :=
  prefixForPackage importPath packageName true

/-- `PrefixForPackage` — imports.go:66-68. -/
def prefixFor (importPath : GoString) : IM GoString := prefixForPackage importPath [] false

/-- `RegisterImportForPackage` — imports.go:38-40. -/
def registerImportForPackage (pkg : Package) : IM GoString :=
  registerImport pkg.importPath pkg.name

/-- `if len(p) > 0 && p[len(p)-1] == '.' { p = p[:len(p)-1] }` — imports.go:47-49, 128-130. -/
def trimDot (p : GoString) : GoString :=
  if p.getLast? = some dot then p.dropLast else p

/-- `registerPackage` — imports.go:45-51. -/
def registerPackage (pkg : Package) : IM GoString := do
  let p ← registerImportForPackage pkg
  pure (trimDot p)

/-- `qualify` — imports.go:123-136. -/
def qualify (sym : Symbol) (registerIfNotFound : Bool) : IM Symbol :=
  if sym.package.name = [] ∧ sym.package.importPath = [] then pure sym
  else do
    let name ← prefixForPackage sym.package.importPath sym.package.name registerIfNotFound
    let name := trimDot name
    if name ≠ sym.package.name then
      pure { package := { name, importPath := sym.package.importPath }, name := sym.name }
    else pure sym

/-- `EnsureImported` — imports.go:112-114. -/
def ensureImported (sym : Symbol) : IM Symbol := qualify sym true

/-- `Qualify` — imports.go:119-121. -/
def qualifyOnly (sym : Symbol) : IM Symbol := qualify sym false

/-- `qualifySymbols` — imports.go:245-261. The Boolean tells whether a fresh slice was returned
(the Go code's callers test this with `sameSlice`, imports.go:239-243). -/
def qualifySymbols (r : Bool) : List Symbol → IM (List Symbol × Bool)
  | [] => pure ([], false)
  | s :: syms => do
    let nt ← qualify s r
    let (rest, c) ← qualifySymbols r syms
    pure (nt :: rest, decide (nt ≠ s) || c)

mutual
/-- `qualifyType` — imports.go:152-214. The Boolean in the result tells whether the returned
`TypeName` differs, as a Go interface value, from the argument: the tests `nelem != elem`
(163, 169, 175, 183, 189), `nsym != sym` (157), `nsig != sig` (195) and `sameSlice` (201, 209)
of the Go code. `n.Kind()` on a nil `TypeName` panics. -/
def qualifyType (r : Bool) : TypeName → IM (TypeName × Bool)
  | .nil => IM.panic
  | .basic k => pure (.basic k, false)
  | .named sym => do
    let nsym ← qualify sym r
    if nsym ≠ sym then pure (namedType nsym, true) else pure (.named sym, false)
  | .ptr elem => do
    let (nelem, c) ← qualifyType r elem
    if c then do
      let n ← IM.lift (pointerType nelem)
      pure (n, true)
    else pure (.ptr elem, false)
  | .slice elem => do
    let (nelem, c) ← qualifyType r elem
    if c then do
      let n ← IM.lift (sliceType nelem)
      pure (n, true)
    else pure (.slice elem, false)
  | .array elem length => do
    let (nelem, c) ← qualifyType r elem
    if c then do
      let n ← IM.lift (arrayType nelem length)
      pure (n, true)
    else pure (.array elem length, false)
  | .map elem key => do
    let (nkey, ck) ← qualifyType r key
    let (nelem, ce) ← qualifyType r elem
    if ce || ck then do
      let n ← IM.lift (mapType nkey nelem)
      pure (n, true)
    else pure (.map elem key, false)
  | .chan elem d => do
    let (nelem, c) ← qualifyType r elem
    if c then do
      let n ← IM.lift (channelType nelem d)
      pure (n, true)
    else pure (.chan elem d, false)
  | .func sig => do
    let (nsig, c) ← qualifySignature r sig
    if c then do
      let n ← IM.lift (funcTypeFromSig nsig)
      pure (n, true)
    else pure (.func sig, false)
  | .struct fields => do
    let (nfields, c) ← qualifyFields r fields
    if c then pure (structType nfields, true) else pure (.struct fields, false)
  | .interface methods embeds => do
    let (nembeds, ce) ← qualifySymbols r embeds
    let (nmethods, cm) ← qualifyMethods r methods
    if ce || cm then pure (interfaceType nembeds nmethods, true)
    else pure (.interface methods embeds, false)

/-- `qualifySignature` — imports.go:230-237. The Boolean tells whether a new `*Signature` is
returned. -/
def qualifySignature (r : Bool) : Signature → IM (Signature × Bool)
  | ⟨args, results, isVariadic⟩ => do
    let (nargs, ca) ← qualifyArgs r args
    let (nresults, cr) ← qualifyArgs r results
    if ca || cr then pure ({ args := nargs, results := nresults, isVariadic }, true)
    else pure (⟨args, results, isVariadic⟩, false)

/-- `qualifyArgs` — imports.go:263-279. The Boolean tells whether a fresh slice is returned. -/
def qualifyArgs (r : Bool) : List ArgType → IM (List ArgType × Bool)
  | [] => pure ([], false)
  | ⟨name, type⟩ :: args => do
    let (nt, c) ← qualifyType r type
    let (rest, cs) ← qualifyArgs r args
    pure (⟨name, nt⟩ :: rest, c || cs)

/-- `qualifyFields` — imports.go:281-297. -/
def qualifyFields (r : Bool) : List FieldType → IM (List FieldType × Bool)
  | [] => pure ([], false)
  | ⟨name, type, tag⟩ :: fields => do
    let (nt, c) ← qualifyType r type
    let (rest, cs) ← qualifyFields r fields
    pure (⟨name, nt, tag⟩ :: rest, c || cs)

/-- `qualifyMethods` — imports.go:299-315. -/
def qualifyMethods (r : Bool) : List MethodType → IM (List MethodType × Bool)
  | [] => pure ([], false)
  | ⟨name, sig⟩ :: methods => do
    let (ns, c) ← qualifySignature r sig
    let (rest, cs) ← qualifyMethods r methods
    pure (⟨name, ns⟩ :: rest, c || cs)
end

/-- `EnsureTypeImported` — imports.go:141-143. -/
def ensureTypeImported (t : TypeName) : IM TypeName := do
  let (t, _) ← qualifyType true t
  pure t

/-- `QualifyType` — imports.go:148-150. -/
def qualifyTypeOnly (t : TypeName) : IM TypeName := do
  let (t, _) ← qualifyType false t
  pure t

/-- `EnsureAllTypesImported` — imports.go:219-221. -/
def ensureAllTypesImported (s : Signature) : IM Signature := do
  let (s, _) ← qualifySignature true s
  pure s

/-- `QualifySignature` — imports.go:226-228. -/
def qualifySignatureOnly (s : Signature) : IM Signature := do
  let (s, _) ← qualifySignature false s
  pure s

end Imports

/-- `ImportSpec` — imports.go:358-361. -/
structure ImportSpec where
  packageAlias : GoString
  importPath : GoString
  deriving DecidableEq, Repr

/-- The loop body of `ImportSpecs` — imports.go:343-349: the specs in the order in which the map
is ranged over. -/
def specOf (e : GoString × ImportDef) : ImportSpec :=
  { importPath := e.1, packageAlias := if e.2.isAlias then e.2.packageName else [] }

/-- Go's `<` on strings (used in imports.go:351): lexicographic on bytes. -/
def goStringLt : GoString → GoString → Bool
  | _, [] => false
  | [], _ :: _ => true
  | a :: s, b :: t => a < b || (a == b && goStringLt s t)

/-- `sort.Slice(specs, less)` — imports.go:350-352; insertion sort (the algorithm does not matter,
see `importSpecs_sort_irrelevant`). -/
def insertSpec (x : ImportSpec) : List ImportSpec → List ImportSpec
  | [] => [x]
  | y :: l => if goStringLt x.importPath y.importPath then x :: y :: l else y :: insertSpec x l

/-- see `insertSpec` -/
def sortSpecs : List ImportSpec → List ImportSpec
  | [] => []
  | x :: l => insertSpec x (sortSpecs l)

/-- `ImportSpecs` — imports.go:340-354 — when the map is ranged over in the order `order`
(a permutation of the map's entries). -/
def importSpecsInOrder (order : List (GoString × ImportDef)) : List ImportSpec :=
  sortSpecs (order.map specOf)

/-- `ImportSpecs` with one particular iteration order (irrelevant, by C06). -/
def Imports.importSpecs (i : Imports) : List ImportSpec := importSpecsInOrder i.importsByPath

end Gopoet
