import Verif.Spec.Template

/-! # Template data that can be rebuilt

`QualifyTemplateData` makes a new value for whatever holds a reference that is written differently in
the file. Go's reflection refuses some of the steps it takes for that. Here is, from the rules of
reflection alone, which data is without such a refused step. `n` gives the qualifier of an import path,
so that `v.requalify h n ≠ v` says that a new value is made for `v`. -/

namespace Gopoet

/-- the type of the value is a pointer to an interface, or a pointer to such a pointer and so on -/
inductive PointsToInterface : TVal → Prop
  | one {acc v} : PointsToInterface (.ptr (.iface acc v))
  | more {v} : PointsToInterface v → PointsToInterface (.ptr v)

mutual
/-- The data can be rebuilt. `addr` tells whether it is addressable: what is behind a pointer or in a
slice is, what is in an interface or a map is not, and a field or an element of an array is if the struct
or the array is. -/
def TVal.Copyable (h : Heap) (n : GoString → GoString) (addr : Bool) : TVal → Prop
  | .iface _ v => v.Copyable h n false
  | .ptr v => v.Copyable h n true
  | .struct fs =>
    -- an unexported field cannot be set in a new struct
    CopyableFields h n addr fs ∧ (requalifyFields h n fs ≠ fs → ∀ f ∈ fs, f.1 = true)
  | .array vs =>
    -- only an addressable array can be sliced, which is how the elements before the new one are copied
    CopyableElems h n addr vs ∧ (requalifyElems h n vs ≠ vs → addr = true)
  | .slice vs => CopyableElems h n true vs
  | .map es => CopyableEntries h n es
  | .spec r => r.present h = true
  | _ => True
/-- see `TVal.Copyable`: an unexported field can only be read if it is addressable, and a new pointer to
an interface points to the value in it, so that it cannot be stored where the old one was -/
def CopyableFields (h : Heap) (n : GoString → GoString) (addr : Bool) : List (Bool × TVal) → Prop
  | [] => True
  | (exported, v) :: fs =>
    (exported = true ∨ addr = true) ∧ v.Copyable h n addr ∧ (v.requalify h n ≠ v → ¬ PointsToInterface v) ∧
      CopyableFields h n addr fs
/-- see `TVal.Copyable` -/
def CopyableElems (h : Heap) (n : GoString → GoString) (addr : Bool) : List TVal → Prop
  | [] => True
  | v :: vs => v.Copyable h n addr ∧ (v.requalify h n ≠ v → ¬ PointsToInterface v) ∧ CopyableElems h n addr vs
/-- see `TVal.Copyable` -/
def CopyableEntries (h : Heap) (n : GoString → GoString) : List (TVal × TVal) → Prop
  | [] => True
  | (k, v) :: es =>
    k.Copyable h n false ∧ v.Copyable h n false ∧ (k.requalify h n ≠ k → ¬ PointsToInterface k) ∧
      (v.requalify h n ≠ v → ¬ PointsToInterface v) ∧ CopyableEntries h n es
end

mutual
/-- No interface holds an interface (in Go, none does: it holds what is in the other one). -/
def TVal.flatIfaces : TVal → Bool
  | .iface _ v => !v.isIface && v.flatIfaces
  | .ptr v => v.flatIfaces
  | .struct fs => flatIfacesFields fs
  | .array vs => flatIfacesElems vs
  | .slice vs => flatIfacesElems vs
  | .map es => flatIfacesEntries es
  | _ => true
/-- see `TVal.flatIfaces` -/
def flatIfacesFields : List (Bool × TVal) → Bool
  | [] => true
  | (_, v) :: fs => v.flatIfaces && flatIfacesFields fs
/-- see `TVal.flatIfaces` -/
def flatIfacesElems : List TVal → Bool
  | [] => true
  | v :: vs => v.flatIfaces && flatIfacesElems vs
/-- see `TVal.flatIfaces` -/
def flatIfacesEntries : List (TVal × TVal) → Bool
  | [] => true
  | (k, v) :: es => k.flatIfaces && v.flatIfaces && flatIfacesEntries es
end

mutual
/-- Nothing gets lost when the data is rebuilt: no pointer to an interface is replaced (the new one would
point to the value in the interface), and no map is replaced in which keys become equal. -/
def TVal.Preserved (h : Heap) (n : GoString → GoString) : TVal → Prop
  | .iface _ v => v.Preserved h n
  | .ptr v => v.Preserved h n ∧ (v.requalify h n ≠ v → v.isIface = false)
  | .struct fs => PreservedFields h n fs
  | .array vs => PreservedElems h n vs
  | .slice vs => PreservedElems h n vs
  | .map es => PreservedEntries h n es ∧ (requalifyEntries h n es ≠ es → keysDistinct (requalifyEntries h n es) = true)
  | _ => True
/-- see `TVal.Preserved` -/
def PreservedFields (h : Heap) (n : GoString → GoString) : List (Bool × TVal) → Prop
  | [] => True
  | (_, v) :: fs => v.Preserved h n ∧ PreservedFields h n fs
/-- see `TVal.Preserved` -/
def PreservedElems (h : Heap) (n : GoString → GoString) : List TVal → Prop
  | [] => True
  | v :: vs => v.Preserved h n ∧ PreservedElems h n vs
/-- see `TVal.Preserved` -/
def PreservedEntries (h : Heap) (n : GoString → GoString) : List (TVal × TVal) → Prop
  | [] => True
  | (k, v) :: es => k.Preserved h n ∧ v.Preserved h n ∧ PreservedEntries h n es
end

/-- The package that a spec in the data is in, or that the copy is in which stands for it. A copy has a package
name, but no import path. -/
def shownPackage (h : Heap) : SpecRef × Option GoString → Option Package
  | (r, none) => r.package h
  | (_, some n) => some ⟨[], n⟩

/-- The specs in `w` are in the packages of the specs in `v`, under the names that `n` gives. -/
def SpecsKept (h : Heap) (n : GoString → GoString) (v w : TVal) : Prop :=
  w.shownSpecs.map (shownPackage h) = v.shownSpecs.map fun x => (shownPackage h x).map (·.requalify n)

/-- The packages of the specs in the data have the names that `n` gives, as far as they have an import path. -/
def SpecsNamed (h : Heap) (n : GoString → GoString) (v : TVal) : Prop :=
  ∀ x ∈ v.shownSpecs, ∀ p, shownPackage h x = some p → p.importPath ≠ [] → n p.importPath = p.name

end Gopoet
