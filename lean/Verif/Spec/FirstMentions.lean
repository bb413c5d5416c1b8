import Verif.Spec.Order
/-!
# The order in which template data mentions packages
-/

namespace Gopoet

/-- The packages of the list with each path once, as it comes first. -/
def firstPackages : List Package → List Package
  | [] => []
  | k :: l => k :: (firstPackages l).filter (fun k' => decide (k'.importPath ≠ k.importPath))

mutual
/-- In every map of the data, at most one entry mentions packages. -/
def TVal.oneReferring : TVal → Prop
  | .iface _ v => v.oneReferring
  | .ptr v => v.oneReferring
  | .struct fs => oneReferringFields fs
  | .array vs => oneReferringElems vs
  | .slice vs => oneReferringElems vs
  | .map es => (es.filter (fun e => decide (e.1.mentions {} ++ e.2.mentions {} ≠ []))).length ≤ 1 ∧ oneReferringEntries es
  | _ => True
/-- see `TVal.oneReferring` -/
def oneReferringFields : List (Bool × TVal) → Prop
  | [] => True
  | (_, v) :: fs => v.oneReferring ∧ oneReferringFields fs
/-- see `TVal.oneReferring` -/
def oneReferringElems : List TVal → Prop
  | [] => True
  | v :: vs => v.oneReferring ∧ oneReferringElems vs
/-- see `TVal.oneReferring` -/
def oneReferringEntries : List (TVal × TVal) → Prop
  | [] => True
  | (k, v) :: es => k.oneReferring ∧ v.oneReferring ∧ oneReferringEntries es
end

end Gopoet
