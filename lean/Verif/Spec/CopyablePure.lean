import Verif.Spec.Copyable
import Verif.Spec.TemplatePure

/-! # Template data that can be rebuilt without `unsafe`

As `Verif.Spec.Copyable`, for builds without `unsafe`: unexported fields are not looked at there. -/

namespace Gopoet

mutual
/-- The data can be rebuilt without `unsafe`. `addr` tells whether it is addressable, and
`v.cover.requalify h n ≠ v.cover` says that a new value is made for `v`. -/
def TVal.CopyablePure (h : Heap) (n : GoString → GoString) (addr : Bool) : TVal → Prop
  | .iface _ v => v.CopyablePure h n false
  | .ptr v => v.CopyablePure h n true
  | .struct fs =>
    -- an unexported field cannot be set in a new struct
    CopyablePureFields h n addr fs ∧ (requalifyFields h n (coverFields fs) ≠ coverFields fs → ∀ f ∈ fs, f.1 = true)
  | .array vs =>
    -- only an addressable array can be sliced, which is how the elements before the new one are copied
    CopyablePureElems h n addr vs ∧ (requalifyElems h n (coverElems vs) ≠ coverElems vs → addr = true)
  | .slice vs => CopyablePureElems h n true vs
  | .map es => CopyablePureEntries h n es
  | .spec r => r.present h = true
  | _ => True
/-- see `TVal.CopyablePure`: what is in an unexported field does not matter -/
def CopyablePureFields (h : Heap) (n : GoString → GoString) (addr : Bool) : List (Bool × TVal) → Prop
  | [] => True
  | (exported, v) :: fs =>
    (exported = true → v.CopyablePure h n addr ∧ (v.cover.requalify h n ≠ v.cover → ¬ PointsToInterface v)) ∧
      CopyablePureFields h n addr fs
/-- see `TVal.CopyablePure` -/
def CopyablePureElems (h : Heap) (n : GoString → GoString) (addr : Bool) : List TVal → Prop
  | [] => True
  | v :: vs =>
    v.CopyablePure h n addr ∧ (v.cover.requalify h n ≠ v.cover → ¬ PointsToInterface v) ∧
      CopyablePureElems h n addr vs
/-- see `TVal.CopyablePure`: keys have no unexported fields here, so that the build makes no difference to them -/
def CopyablePureEntries (h : Heap) (n : GoString → GoString) : List (TVal × TVal) → Prop
  | [] => True
  | (k, v) :: es =>
    k.Copyable h n false ∧ v.CopyablePure h n false ∧ (k.requalify h n ≠ k → ¬ PointsToInterface k) ∧
      (v.cover.requalify h n ≠ v.cover → ¬ PointsToInterface v) ∧ CopyablePureEntries h n es
end

end Gopoet
