import Verif.Model.Template
import Verif.Spec.Types
import Verif.Spec.Imports
/-!
# Specification vocabulary for template data: the references in it
-/

namespace Gopoet

/-- The packages of the symbols of a type that a conversion gives. -/
def convertedRefs : Outcome TypeName → List Package
  | .ok t => t.symbols.map (·.package)
  | _ => []

/-- The package of the symbol or method that a `types.Object` stands for. -/
def objectRefs : Outcome SymbolOrMethodRef → List Package
  | .ok (.symbol s) => [s.package]
  | .ok (.method m) => [m.type.package]
  | _ => []

mutual
/-- The packages that the references in template data mention, at any depth. References by
package-level specs (`*TypeSpec` etc.) are not counted (see `TVal.noSpecs`). Values of reflect and
go/types count in interfaces that can also hold the gopoet value that stands for them. -/
def TVal.refs : TVal → List Package
  | .iface acc v =>
    match v with
    | .typeName t => if acc.typeName then t.symbols.map (·.package) else []
    | .reflectType t => if acc.typeName then convertedRefs (typeNameForReflectType t) else []
    | .goType t => if acc.typeName then convertedRefs (typeNameForGoType t) else []
    | .goObject o => if acc.symbol && acc.mref then objectRefs (symbolForGoObject o) else []
    | .goPackage g => if acc.package then [⟨g.path, g.name⟩] else []
    | v => v.refs
  | .package p => [p]
  | .symbol s => [s.package]
  | .mref m => [m.type.package]
  | .signature s => s.symbols.map (·.package)
  | .embed e => [e.type.package]
  | .method m => m.signature.symbols.map (·.package)
  | .ptr v => v.refs
  | .struct fs => refsFields fs
  | .array vs => refsElems vs
  | .slice vs => refsElems vs
  | .map es => refsEntries es
  | _ => []
/-- see `TVal.refs` -/
def refsFields : List (Bool × TVal) → List Package
  | [] => []
  | (_, v) :: fs => v.refs ++ refsFields fs
/-- see `TVal.refs` -/
def refsElems : List TVal → List Package
  | [] => []
  | v :: vs => v.refs ++ refsElems vs
/-- see `TVal.refs` -/
def refsEntries : List (TVal × TVal) → List Package
  | [] => []
  | (k, v) :: es => k.refs ++ v.refs ++ refsEntries es
end

mutual
/-- All packages that data mentions, at any depth. Values of reflect and go/types and `TypeName`s
are in interfaces. -/
def TVal.packages : TVal → List Package
  | .iface _ v =>
    match v with
    | .typeName t => t.symbols.map (·.package)
    | .reflectType t => convertedRefs (typeNameForReflectType t)
    | .goType t => convertedRefs (typeNameForGoType t)
    | .goObject o => objectRefs (symbolForGoObject o)
    | .goPackage g => [⟨g.path, g.name⟩]
    | v => v.packages
  | .package p => [p]
  | .symbol s => [s.package]
  | .mref m => [m.type.package]
  | .signature s => s.symbols.map (·.package)
  | .specCopy _ n => [⟨[], n⟩]
  | .embed e => [e.type.package]
  | .method m => m.signature.symbols.map (·.package)
  | .ptr v => v.packages
  | .struct fs => packagesFields fs
  | .array vs => packagesElems vs
  | .slice vs => packagesElems vs
  | .map es => packagesEntries es
  | _ => []
/-- see `TVal.packages` -/
def packagesFields : List (Bool × TVal) → List Package
  | [] => []
  | (_, v) :: fs => v.packages ++ packagesFields fs
/-- see `TVal.packages` -/
def packagesElems : List TVal → List Package
  | [] => []
  | v :: vs => v.packages ++ packagesElems vs
/-- see `TVal.packages` -/
def packagesEntries : List (TVal × TVal) → List Package
  | [] => []
  | (k, v) :: es => k.packages ++ v.packages ++ packagesEntries es
end

mutual
/-- The data contains no package-level spec (`ConstSpec`, `VarSpec`, `TypeSpec`, `FuncSpec`). -/
def TVal.noSpecs : TVal → Bool
  | .iface _ v => v.noSpecs
  | .spec _ => false
  | .specCopy _ _ => false
  | .ptr v => v.noSpecs
  | .struct fs => noSpecsFields fs
  | .array vs => noSpecsElems vs
  | .slice vs => noSpecsElems vs
  | .map es => noSpecsEntries es
  | _ => true
/-- see `TVal.noSpecs` -/
def noSpecsFields : List (Bool × TVal) → Bool
  | [] => true
  | (_, v) :: fs => v.noSpecs && noSpecsFields fs
/-- see `TVal.noSpecs` -/
def noSpecsElems : List TVal → Bool
  | [] => true
  | v :: vs => v.noSpecs && noSpecsElems vs
/-- see `TVal.noSpecs` -/
def noSpecsEntries : List (TVal × TVal) → Bool
  | [] => true
  | (k, v) :: es => k.noSpecs && v.noSpecs && noSpecsEntries es
end

mutual
/-- The package names of the copies that stand for package-level specs in the data, at any depth. -/
def TVal.copyNames : TVal → List GoString
  | .iface _ v => v.copyNames
  | .specCopy _ n => [n]
  | .ptr v => v.copyNames
  | .struct fs => copyNamesFields fs
  | .array vs => copyNamesElems vs
  | .slice vs => copyNamesElems vs
  | .map es => copyNamesEntries es
  | _ => []
/-- see `TVal.copyNames` -/
def copyNamesFields : List (Bool × TVal) → List GoString
  | [] => []
  | (_, v) :: fs => v.copyNames ++ copyNamesFields fs
/-- see `TVal.copyNames` -/
def copyNamesElems : List TVal → List GoString
  | [] => []
  | v :: vs => v.copyNames ++ copyNamesElems vs
/-- see `TVal.copyNames` -/
def copyNamesEntries : List (TVal × TVal) → List GoString
  | [] => []
  | (k, v) :: es => k.copyNames ++ v.copyNames ++ copyNamesEntries es
end

mutual
/-- The package-level specs in the data, at any depth, with the package names of the copies that stand for
them, if they do. -/
def TVal.shownSpecs : TVal → List (SpecRef × Option GoString)
  | .iface _ v => v.shownSpecs
  | .spec r => [(r, none)]
  | .specCopy r n => [(r, some n)]
  | .ptr v => v.shownSpecs
  | .struct fs => shownSpecsFields fs
  | .array vs => shownSpecsElems vs
  | .slice vs => shownSpecsElems vs
  | .map es => shownSpecsEntries es
  | _ => []
/-- see `TVal.shownSpecs` -/
def shownSpecsFields : List (Bool × TVal) → List (SpecRef × Option GoString)
  | [] => []
  | (_, v) :: fs => v.shownSpecs ++ shownSpecsFields fs
/-- see `TVal.shownSpecs` -/
def shownSpecsElems : List TVal → List (SpecRef × Option GoString)
  | [] => []
  | v :: vs => v.shownSpecs ++ shownSpecsElems vs
/-- see `TVal.shownSpecs` -/
def shownSpecsEntries : List (TVal × TVal) → List (SpecRef × Option GoString)
  | [] => []
  | (k, v) :: es => k.shownSpecs ++ v.shownSpecs ++ shownSpecsEntries es
end

/-- The packages of the symbols of a type that a conversion gives, without those of predeclared names. -/
def convertedMentions : Outcome TypeName → List Package
  | .ok t => packagesOf t.symbols
  | _ => []

/-- The same for `types.Object`s. -/
def objectMentions : Outcome SymbolOrMethodRef → List Package
  | .ok (.symbol s) => packagesOf [s]
  | .ok (.method m) => packagesOf [m.type]
  | _ => []

/-- The package that a spec belongs to: that of the file that it was added to. -/
def SpecRef.package (h : Heap) (r : SpecRef) : Option Package :=
  match r.parent h with
  | .ok (some p) => (h.files p).map (·.package)
  | _ => none

/-- The spec exists, and so does the file that it was added to, if it was. -/
def SpecRef.present (h : Heap) (r : SpecRef) : Bool :=
  match r.parent h with
  | .ok (some p) => (h.files p).isSome
  | .ok none => true
  | _ => false

mutual
/-- The packages that data mentions, in the order in which they occur, with repetitions and without
those of predeclared names. A spec mentions the package that it is declared in. -/
def TVal.mentions (h : Heap) : TVal → List Package
  | .iface _ v =>
    match v with
    | .typeName t => packagesOf t.symbols
    | .reflectType t => convertedMentions (typeNameForReflectType t)
    | .goType t => convertedMentions (typeNameForGoType t)
    | .goObject o => objectMentions (symbolForGoObject o)
    | .goPackage g => [⟨g.path, g.name⟩]
    | v => v.mentions h
  | .package p => [p]
  | .symbol s => packagesOf [s]
  | .mref m => packagesOf [m.type]
  | .signature s => packagesOf s.symbols
  | .spec r => (r.package h).toList
  | .specCopy _ n => [⟨[], n⟩]
  | .embed e => packagesOf [e.type]
  | .method m => packagesOf m.signature.symbols
  | .ptr v => v.mentions h
  | .struct fs => mentionsFields h fs
  | .array vs => mentionsElems h vs
  | .slice vs => mentionsElems h vs
  | .map es => mentionsEntries h es
  | _ => []
/-- see `TVal.mentions` -/
def mentionsFields (h : Heap) : List (Bool × TVal) → List Package
  | [] => []
  | (_, v) :: fs => v.mentions h ++ mentionsFields h fs
/-- see `TVal.mentions` -/
def mentionsElems (h : Heap) : List TVal → List Package
  | [] => []
  | v :: vs => v.mentions h ++ mentionsElems h vs
/-- see `TVal.mentions` -/
def mentionsEntries (h : Heap) : List (TVal × TVal) → List Package
  | [] => []
  | (k, v) :: es => k.mentions h ++ (v.mentions h ++ mentionsEntries h es)
end

mutual
/-- The specs in the data exist, and so do the files that they were added to. -/
def TVal.specsPresent (h : Heap) : TVal → Bool
  | .iface _ v => v.specsPresent h
  | .spec r => r.present h
  | .ptr v => v.specsPresent h
  | .struct fs => specsPresentFields h fs
  | .array vs => specsPresentElems h vs
  | .slice vs => specsPresentElems h vs
  | .map es => specsPresentEntries h es
  | _ => true
/-- see `TVal.specsPresent` -/
def specsPresentFields (h : Heap) : List (Bool × TVal) → Bool
  | [] => true
  | (_, v) :: fs => v.specsPresent h && specsPresentFields h fs
/-- see `TVal.specsPresent` -/
def specsPresentElems (h : Heap) : List TVal → Bool
  | [] => true
  | v :: vs => v.specsPresent h && specsPresentElems h vs
/-- see `TVal.specsPresent` -/
def specsPresentEntries (h : Heap) : List (TVal × TVal) → Bool
  | [] => true
  | (k, v) :: es => k.specsPresent h && v.specsPresent h && specsPresentEntries h es
end

/-- The data is the same except for the order in which the entries of maps are enumerated, at any
depth. -/
inductive Reordered : TVal → TVal → Prop
  | refl (v : TVal) : Reordered v v
  | trans {u v w : TVal} : Reordered u v → Reordered v w → Reordered u w
  | perm {es es' : List (TVal × TVal)} : es.Perm es' → Reordered (.map es) (.map es')
  | iface {acc : Accepts} {v v' : TVal} : Reordered v v' → Reordered (.iface acc v) (.iface acc v')
  | ptr {v v' : TVal} : Reordered v v' → Reordered (.ptr v) (.ptr v')
  | field {a b : List (Bool × TVal)} {e : Bool} {v v' : TVal} :
      Reordered v v' → Reordered (.struct (a ++ (e, v) :: b)) (.struct (a ++ (e, v') :: b))
  | array {a b : List TVal} {v v' : TVal} :
      Reordered v v' → Reordered (.array (a ++ v :: b)) (.array (a ++ v' :: b))
  | slice {a b : List TVal} {v v' : TVal} :
      Reordered v v' → Reordered (.slice (a ++ v :: b)) (.slice (a ++ v' :: b))
  | key {a b : List (TVal × TVal)} {k k' v : TVal} :
      Reordered k k' → Reordered (.map (a ++ (k, v) :: b)) (.map (a ++ (k', v) :: b))
  | value {a b : List (TVal × TVal)} {k v v' : TVal} :
      Reordered v v' → Reordered (.map (a ++ (k, v) :: b)) (.map (a ++ (k, v') :: b))

/-! ### Replacing the references -/

/-- The symbol with the package name that `n` gives for the package's path. Symbols without package
stay as they are. -/
def Symbol.requalify (n : GoString → GoString) (s : Symbol) : Symbol :=
  if s.package = ⟨[], []⟩ then s else ⟨⟨s.package.importPath, n s.package.importPath⟩, s.name⟩

/-- see `Symbol.requalify` -/
def Package.requalify (n : GoString → GoString) (p : Package) : Package := ⟨p.importPath, n p.importPath⟩

/-- What an interface holds instead of something that is converted to the type `t`: the `TypeName`
if that has symbols with other names then and fits into the interface. -/
def requalifyConverted (n : GoString → GoString) (acc : Accepts) (orig : TVal) : Outcome TypeName → TVal
  | .ok t =>
    if acc.typeName && t.symbols.any (fun s => decide (s.requalify n ≠ s)) then
      .iface acc (.typeName (t.mapSymbols (·.requalify n)))
    else orig
  | _ => orig

/-- The same for a `types.Object`. -/
def requalifyObject (n : GoString → GoString) (acc : Accepts) (orig : TVal) :
    Outcome SymbolOrMethodRef → TVal
  | .ok (.symbol s) =>
    if acc.symbol ∧ s.requalify n ≠ s then .iface acc (.symbol (s.requalify n)) else orig
  | .ok (.method m) =>
    if acc.mref ∧ m.type.requalify n ≠ m.type then
      .iface acc (.ptr (.mref { m with type := m.type.requalify n }))
    else orig
  | _ => orig

mutual
/-- The data with all package names in references replaced by what `n` gives for the package's path
and nothing else changed. A spec whose package gets another name is replaced by a copy in a package of that
name. -/
def TVal.requalify (h : Heap) (n : GoString → GoString) : TVal → TVal
  | .iface acc v =>
    match v with
    | .typeName t => requalifyConverted n acc (.iface acc (.typeName t)) (.ok t)
    | .reflectType t => requalifyConverted n acc (.iface acc (.reflectType t)) (typeNameForReflectType t)
    | .goType t => requalifyConverted n acc (.iface acc (.goType t)) (typeNameForGoType t)
    | .goObject o => requalifyObject n acc (.iface acc (.goObject o)) (symbolForGoObject o)
    | .goPackage g =>
      if acc.package ∧ n g.path ≠ g.name then .iface acc (.package ⟨g.path, n g.path⟩)
      else .iface acc (.goPackage g)
    | v => .iface acc (v.requalify h n)
  | .package p => .package (p.requalify n)
  | .symbol s => .symbol (s.requalify n)
  | .mref m => .mref { m with type := m.type.requalify n }
  | .signature s => .signature (s.mapSymbols (·.requalify n))
  | .spec r =>
    match r.package h with
    | some p => if n p.importPath = p.name then .spec r else .specCopy r (n p.importPath)
    | none => .spec r
  | .specCopy r _ => .specCopy r (n [])
  | .embed e => .embed { e with type := e.type.requalify n }
  | .method m => .method { m with signature := m.signature.mapSymbols (·.requalify n) }
  | .ptr v => .ptr (v.requalify h n)
  | .struct fs => .struct (requalifyFields h n fs)
  | .array vs => .array (requalifyElems h n vs)
  | .slice vs => .slice (requalifyElems h n vs)
  | .map es => .map (requalifyEntries h n es)
  | v => v
/-- see `TVal.requalify` -/
def requalifyFields (h : Heap) (n : GoString → GoString) : List (Bool × TVal) → List (Bool × TVal)
  | [] => []
  | (e, v) :: fs => (e, v.requalify h n) :: requalifyFields h n fs
/-- see `TVal.requalify` -/
def requalifyElems (h : Heap) (n : GoString → GoString) : List TVal → List TVal
  | [] => []
  | v :: vs => v.requalify h n :: requalifyElems h n vs
/-- see `TVal.requalify` -/
def requalifyEntries (h : Heap) (n : GoString → GoString) : List (TVal × TVal) → List (TVal × TVal)
  | [] => []
  | (k, v) :: es => (k.requalify h n, v.requalify h n) :: requalifyEntries h n es
end

/-- No key of a map equals another one. -/
def keysDistinct : List (TVal × TVal) → Bool
  | [] => true
  | e :: es => es.all (fun x => !e.1.keyEq x.1) && keysDistinct es

mutual
/-- No map in the data has two equal keys (it would not be a map). -/
def TVal.distinctKeys : TVal → Bool
  | .iface _ v => v.distinctKeys
  | .ptr v => v.distinctKeys
  | .struct fs => distinctKeysFields fs
  | .array vs => distinctKeysElems vs
  | .slice vs => distinctKeysElems vs
  | .map es => keysDistinct es && distinctKeysEntries es
  | _ => true
/-- see `TVal.distinctKeys` -/
def distinctKeysFields : List (Bool × TVal) → Bool
  | [] => true
  | (_, v) :: fs => v.distinctKeys && distinctKeysFields fs
/-- see `TVal.distinctKeys` -/
def distinctKeysElems : List TVal → Bool
  | [] => true
  | v :: vs => v.distinctKeys && distinctKeysElems vs
/-- see `TVal.distinctKeys` -/
def distinctKeysEntries : List (TVal × TVal) → Bool
  | [] => true
  | (k, v) :: es => k.distinctKeys && v.distinctKeys && distinctKeysEntries es
end

/-- All keys are values without references, as strings and numbers are. -/
def keysPlain : List (TVal × TVal) → Bool
  | [] => true
  | (.scalar _, _) :: es => keysPlain es
  | _ => false

mutual
/-- All keys of maps in the data are values without references. -/
def TVal.plainKeys : TVal → Bool
  | .iface _ v => v.plainKeys
  | .ptr v => v.plainKeys
  | .struct fs => plainKeysFields fs
  | .array vs => plainKeysElems vs
  | .slice vs => plainKeysElems vs
  | .map es => keysPlain es && plainKeysEntries es
  | _ => true
/-- see `TVal.plainKeys` -/
def plainKeysFields : List (Bool × TVal) → Bool
  | [] => true
  | (_, v) :: fs => v.plainKeys && plainKeysFields fs
/-- see `TVal.plainKeys` -/
def plainKeysElems : List TVal → Bool
  | [] => true
  | v :: vs => v.plainKeys && plainKeysElems vs
/-- see `TVal.plainKeys` -/
def plainKeysEntries : List (TVal × TVal) → Bool
  | [] => true
  | (_, v) :: es => v.plainKeys && plainKeysEntries es
end

/-- The conversion gives a valid type. -/
def convertedValid : Outcome TypeName → Bool
  | .ok t => t.valid
  | _ => false

/-- The conversion does not panic. -/
def Outcome.isOk {α : Type} : Outcome α → Bool
  | .ok _ => true
  | _ => false

mutual
/-- The types in the data are valid: no type in them is nil and so on. -/
def TVal.validTypes : TVal → Bool
  | .iface _ v =>
    match v with
    | .typeName t => t.valid
    | .reflectType t => convertedValid (typeNameForReflectType t)
    | .goType t => convertedValid (typeNameForGoType t)
    | .goObject o => (symbolForGoObject o).isOk
    | .goPackage _ => true
    | v => v.validTypes
  | .signature s => s.valid
  | .method m => m.signature.valid
  | .ptr v => v.validTypes
  | .struct fs => validTypesFields fs
  | .array vs => validTypesElems vs
  | .slice vs => validTypesElems vs
  | .map es => validTypesEntries es
  | _ => true
/-- see `TVal.validTypes` -/
def validTypesFields : List (Bool × TVal) → Bool
  | [] => true
  | (_, v) :: fs => v.validTypes && validTypesFields fs
/-- see `TVal.validTypes` -/
def validTypesElems : List TVal → Bool
  | [] => true
  | v :: vs => v.validTypes && validTypesElems vs
/-- see `TVal.validTypes` -/
def validTypesEntries : List (TVal × TVal) → Bool
  | [] => true
  | (k, v) :: es => k.validTypes && v.validTypes && validTypesEntries es
end

mutual
/-- The data has no struct (of the user's) with unexported fields and no array that is not behind a
pointer or in a slice: `addr` tells whether it is. -/
def TVal.settable (addr : Bool) : TVal → Bool
  | .iface _ v => v.settable false
  | .ptr v => v.settable true
  | .struct fs => settableFields addr fs
  | .array vs => addr && settableElems addr vs
  | .slice vs => settableElems true vs
  | .map es => settableEntries es
  | _ => true
/-- see `TVal.settable` -/
def settableFields (addr : Bool) : List (Bool × TVal) → Bool
  | [] => true
  | (e, v) :: fs => e && v.settable addr && settableFields addr fs
/-- see `TVal.settable` -/
def settableElems (addr : Bool) : List TVal → Bool
  | [] => true
  | v :: vs => v.settable addr && settableElems addr vs
/-- see `TVal.settable` -/
def settableEntries : List (TVal × TVal) → Bool
  | [] => true
  | (k, v) :: es => k.settable false && v.settable false && settableEntries es
end

/-- The value is an interface. -/
def TVal.isIface : TVal → Bool
  | .iface _ _ => true
  | _ => false

mutual
/-- No pointer in the data points to an interface. -/
def TVal.flatPtrs : TVal → Bool
  | .iface _ v => v.flatPtrs
  | .ptr v => !v.isIface && v.flatPtrs
  | .struct fs => flatPtrsFields fs
  | .array vs => flatPtrsElems vs
  | .slice vs => flatPtrsElems vs
  | .map es => flatPtrsEntries es
  | _ => true
/-- see `TVal.flatPtrs` -/
def flatPtrsFields : List (Bool × TVal) → Bool
  | [] => true
  | (_, v) :: fs => v.flatPtrs && flatPtrsFields fs
/-- see `TVal.flatPtrs` -/
def flatPtrsElems : List TVal → Bool
  | [] => true
  | v :: vs => v.flatPtrs && flatPtrsElems vs
/-- see `TVal.flatPtrs` -/
def flatPtrsEntries : List (TVal × TVal) → Bool
  | [] => true
  | (k, v) :: es => k.flatPtrs && v.flatPtrs && flatPtrsEntries es
end

/-- Template data without package-level specs, unexported fields, arrays that are not behind pointers
or in slices, pointers to interfaces, invalid types and references in keys of maps. -/
structure PlainData (v : TVal) : Prop where
  noSpecs : v.noSpecs = true
  valid : (TVal.iface acceptsAll v).validTypes = true
  settable : v.settable false = true
  flatPtrs : v.flatPtrs = true
  plainKeys : v.plainKeys = true
  distinctKeys : v.distinctKeys = true

/-- No template data on the heap contains a package-level spec. -/
def NoSpecData (h : Heap) : Prop := ∀ p t, h.templs p = some t → t.data.noSpecs = true

end Gopoet
