import Verif.Model.Heap
/-!
# Specification vocabulary for template data in builds without `unsafe`
-/

namespace Gopoet

mutual
/-- All fields of structs are exported. -/
def TVal.exported : TVal → Bool
  | .iface _ v => v.exported
  | .ptr v => v.exported
  | .struct fs => exportedFields fs
  | .array vs => exportedElems vs
  | .slice vs => exportedElems vs
  | .map es => exportedEntries es
  | _ => true
/-- see `TVal.exported` -/
def exportedFields : List (Bool × TVal) → Bool
  | [] => true
  | (e, v) :: fs => e && v.exported && exportedFields fs
/-- see `TVal.exported` -/
def exportedElems : List TVal → Bool
  | [] => true
  | v :: vs => v.exported && exportedElems vs
/-- see `TVal.exported` -/
def exportedEntries : List (TVal × TVal) → Bool
  | [] => true
  | (k, v) :: es => k.exported && v.exported && exportedEntries es
end

mutual
/-- The data with other values in the unexported fields of structs, those in keys of maps excepted. -/
def TVal.mapHidden (f : TVal → TVal) : TVal → TVal
  | .iface acc v => .iface acc (v.mapHidden f)
  | .ptr v => .ptr (v.mapHidden f)
  | .struct fs => .struct (mapHiddenFields f fs)
  | .array vs => .array (mapHiddenElems f vs)
  | .slice vs => .slice (mapHiddenElems f vs)
  | .map es => .map (mapHiddenEntries f es)
  | v => v
/-- see `TVal.mapHidden` -/
def mapHiddenFields (f : TVal → TVal) : List (Bool × TVal) → List (Bool × TVal)
  | [] => []
  | (e, v) :: fs => (e, if e then v.mapHidden f else f v) :: mapHiddenFields f fs
/-- see `TVal.mapHidden` -/
def mapHiddenElems (f : TVal → TVal) : List TVal → List TVal
  | [] => []
  | v :: vs => v.mapHidden f :: mapHiddenElems f vs
/-- see `TVal.mapHidden` -/
def mapHiddenEntries (f : TVal → TVal) : List (TVal × TVal) → List (TVal × TVal)
  | [] => []
  | (k, v) :: es => (k, v.mapHidden f) :: mapHiddenEntries f es
end

mutual
/-- The data with a number in an exported field for each unexported field, keys of maps excepted. -/
def TVal.cover : TVal → TVal
  | .iface acc v => .iface acc v.cover
  | .ptr v => .ptr v.cover
  | .struct fs => .struct (coverFields fs)
  | .array vs => .array (coverElems vs)
  | .slice vs => .slice (coverElems vs)
  | .map es => .map (coverEntries es)
  | v => v
/-- see `TVal.cover` -/
def coverFields : List (Bool × TVal) → List (Bool × TVal)
  | [] => []
  | (e, v) :: fs => (true, if e then v.cover else .scalar 0) :: coverFields fs
/-- see `TVal.cover` -/
def coverElems : List TVal → List TVal
  | [] => []
  | v :: vs => v.cover :: coverElems vs
/-- see `TVal.cover` -/
def coverEntries : List (TVal × TVal) → List (TVal × TVal)
  | [] => []
  | (k, v) :: es => (k, v.cover) :: coverEntries es
end

mutual
/-- The keys of maps contain no unexported fields (maps in unexported fields excepted). -/
def TVal.exportedKeys : TVal → Bool
  | .iface _ v => v.exportedKeys
  | .ptr v => v.exportedKeys
  | .struct fs => exportedKeysFields fs
  | .array vs => exportedKeysElems vs
  | .slice vs => exportedKeysElems vs
  | .map es => exportedKeysEntries es
  | _ => true
/-- see `TVal.exportedKeys` -/
def exportedKeysFields : List (Bool × TVal) → Bool
  | [] => true
  | (e, v) :: fs => (!e || v.exportedKeys) && exportedKeysFields fs
/-- see `TVal.exportedKeys` -/
def exportedKeysElems : List TVal → Bool
  | [] => true
  | v :: vs => v.exportedKeys && exportedKeysElems vs
/-- see `TVal.exportedKeys` -/
def exportedKeysEntries : List (TVal × TVal) → Bool
  | [] => true
  | (k, v) :: es => k.exported && v.exportedKeys && exportedKeysEntries es
end

end Gopoet
