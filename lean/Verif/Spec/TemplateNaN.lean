import Verif.Model.TemplateNaN
/-!
# Specification vocabulary for template data with NaN in the keys of maps
-/

namespace Gopoet

mutual
/-- No map in the data has a key with NaN in it. -/
def TVal.noNaNKeys (nan : Nat → Bool) : TVal → Bool
  | .iface _ v => v.noNaNKeys nan
  | .ptr v => v.noNaNKeys nan
  | .struct fs => noNaNKeysFields nan fs
  | .array vs => noNaNKeysElems nan vs
  | .slice vs => noNaNKeysElems nan vs
  | .map es => noNaNKeysEntries nan es
  | _ => true
/-- see `TVal.noNaNKeys` -/
def noNaNKeysFields (nan : Nat → Bool) : List (Bool × TVal) → Bool
  | [] => true
  | (_, v) :: fs => v.noNaNKeys nan && noNaNKeysFields nan fs
/-- see `TVal.noNaNKeys` -/
def noNaNKeysElems (nan : Nat → Bool) : List TVal → Bool
  | [] => true
  | v :: vs => v.noNaNKeys nan && noNaNKeysElems nan vs
/-- see `TVal.noNaNKeys` -/
def noNaNKeysEntries (nan : Nat → Bool) : List (TVal × TVal) → Bool
  | [] => true
  | (k, v) :: es => !k.hasNaN nan && k.noNaNKeys nan && v.noNaNKeys nan && noNaNKeysEntries nan es
end

mutual
/-- No key of a map leads to a map with NaN in its keys (as it could by a pointer). -/
def TVal.flatNaN (nan : Nat → Bool) : TVal → Bool
  | .iface _ v => v.flatNaN nan
  | .ptr v => v.flatNaN nan
  | .struct fs => flatNaNFields nan fs
  | .array vs => flatNaNElems nan vs
  | .slice vs => flatNaNElems nan vs
  | .map es => flatNaNEntries nan es
  | _ => true
/-- see `TVal.flatNaN` -/
def flatNaNFields (nan : Nat → Bool) : List (Bool × TVal) → Bool
  | [] => true
  | (_, v) :: fs => v.flatNaN nan && flatNaNFields nan fs
/-- see `TVal.flatNaN` -/
def flatNaNElems (nan : Nat → Bool) : List TVal → Bool
  | [] => true
  | v :: vs => v.flatNaN nan && flatNaNElems nan vs
/-- see `TVal.flatNaN` -/
def flatNaNEntries (nan : Nat → Bool) : List (TVal × TVal) → Bool
  | [] => true
  | (k, v) :: es => k.noNaNKeys nan && (k.hasNaN nan || v.flatNaN nan) && flatNaNEntries nan es
end

mutual
/-- The data with other values at keys with NaN in them. Keys are left alone. -/
def TVal.mapNaN (nan : Nat → Bool) (f : TVal → TVal) : TVal → TVal
  | .iface acc v => .iface acc (v.mapNaN nan f)
  | .ptr v => .ptr (v.mapNaN nan f)
  | .struct fs => .struct (mapNaNFields nan f fs)
  | .array vs => .array (mapNaNElems nan f vs)
  | .slice vs => .slice (mapNaNElems nan f vs)
  | .map es => .map (mapNaNEntries nan f es)
  | v => v
/-- see `TVal.mapNaN` -/
def mapNaNFields (nan : Nat → Bool) (f : TVal → TVal) : List (Bool × TVal) → List (Bool × TVal)
  | [] => []
  | (e, v) :: fs => (e, v.mapNaN nan f) :: mapNaNFields nan f fs
/-- see `TVal.mapNaN` -/
def mapNaNElems (nan : Nat → Bool) (f : TVal → TVal) : List TVal → List TVal
  | [] => []
  | v :: vs => v.mapNaN nan f :: mapNaNElems nan f vs
/-- see `TVal.mapNaN` -/
def mapNaNEntries (nan : Nat → Bool) (f : TVal → TVal) : List (TVal × TVal) → List (TVal × TVal)
  | [] => []
  | (k, v) :: es => (k, if k.hasNaN nan then f v else v.mapNaN nan f) :: mapNaNEntries nan f es
end

mutual
/-- The data without the entries of maps at keys with NaN in them. Keys are left alone. -/
def TVal.dropNaN (nan : Nat → Bool) : TVal → TVal
  | .iface acc v => .iface acc (v.dropNaN nan)
  | .ptr v => .ptr (v.dropNaN nan)
  | .struct fs => .struct (dropNaNFields nan fs)
  | .array vs => .array (dropNaNElems nan vs)
  | .slice vs => .slice (dropNaNElems nan vs)
  | .map es => .map (dropNaNEntries nan es)
  | v => v
/-- see `TVal.dropNaN` -/
def dropNaNFields (nan : Nat → Bool) : List (Bool × TVal) → List (Bool × TVal)
  | [] => []
  | (e, v) :: fs => (e, v.dropNaN nan) :: dropNaNFields nan fs
/-- see `TVal.dropNaN` -/
def dropNaNElems (nan : Nat → Bool) : List TVal → List TVal
  | [] => []
  | v :: vs => v.dropNaN nan :: dropNaNElems nan vs
/-- see `TVal.dropNaN` -/
def dropNaNEntries (nan : Nat → Bool) : List (TVal × TVal) → List (TVal × TVal)
  | [] => []
  | (k, v) :: es => if k.hasNaN nan then dropNaNEntries nan es else (k, v.dropNaN nan) :: dropNaNEntries nan es
end

/-- Two outcomes of actions on the imports: the same imports, and related results. -/
inductive OutcomesRelated {α β : Type} (R : α → β → Prop) : Outcome α × Imports → Outcome β × Imports → Prop
  | ok {a b} (j) : R a b → OutcomesRelated R (.ok a, j) (.ok b, j)
  | panic (j) : OutcomesRelated R (.panic, j) (.panic, j)
  | hang (j) : OutcomesRelated R (.hang, j) (.hang, j)

end Gopoet
