import Verif.Model.Types
/-!
# Specification vocabulary for types

What it means to replace the symbols of a type, which symbols a type mentions, and which types
are valid. Written without reference to the code that qualifies or renders types.
-/

namespace Gopoet

mutual
/-- Replace every symbol of a type by `f` of it and change nothing else. -/
def TypeName.mapSymbols (f : Symbol → Symbol) : TypeName → TypeName
  | .nil => .nil
  | .basic k => .basic k
  | .named s => .named (f s)
  | .ptr e => .ptr (e.mapSymbols f)
  | .slice e => .slice (e.mapSymbols f)
  | .array e n => .array (e.mapSymbols f) n
  | .map e k => .map (e.mapSymbols f) (k.mapSymbols f)
  | .chan e d => .chan (e.mapSymbols f) d
  | .func s => .func (s.mapSymbols f)
  | .struct fs => .struct (mapSymbolsFields f fs)
  | .interface ms es => .interface (mapSymbolsMethods f ms) (es.map f)
/-- see `TypeName.mapSymbols` -/
def Signature.mapSymbols (f : Symbol → Symbol) : Signature → Signature
  | ⟨args, results, v⟩ => ⟨mapSymbolsArgs f args, mapSymbolsArgs f results, v⟩
/-- see `TypeName.mapSymbols` -/
def mapSymbolsArgs (f : Symbol → Symbol) : List ArgType → List ArgType
  | [] => []
  | ⟨n, t⟩ :: l => ⟨n, t.mapSymbols f⟩ :: mapSymbolsArgs f l
/-- see `TypeName.mapSymbols` -/
def mapSymbolsFields (f : Symbol → Symbol) : List FieldType → List FieldType
  | [] => []
  | ⟨n, t, tag⟩ :: l => ⟨n, t.mapSymbols f, tag⟩ :: mapSymbolsFields f l
/-- see `TypeName.mapSymbols` -/
def mapSymbolsMethods (f : Symbol → Symbol) : List MethodType → List MethodType
  | [] => []
  | ⟨n, s⟩ :: l => ⟨n, s.mapSymbols f⟩ :: mapSymbolsMethods f l
end

mutual
/-- All symbols a type mentions (map keys before elements, embedded interfaces before methods,
arguments before results). -/
def TypeName.symbols : TypeName → List Symbol
  | .nil => []
  | .basic _ => []
  | .named s => [s]
  | .ptr e => e.symbols
  | .slice e => e.symbols
  | .array e _ => e.symbols
  | .map e k => k.symbols ++ e.symbols
  | .chan e _ => e.symbols
  | .func s => s.symbols
  | .struct fs => symbolsFields fs
  | .interface ms es => es ++ symbolsMethods ms
/-- see `TypeName.symbols` -/
def Signature.symbols : Signature → List Symbol
  | ⟨args, results, _⟩ => symbolsArgs args ++ symbolsArgs results
/-- see `TypeName.symbols` -/
def symbolsArgs : List ArgType → List Symbol
  | [] => []
  | ⟨_, t⟩ :: l => t.symbols ++ symbolsArgs l
/-- see `TypeName.symbols` -/
def symbolsFields : List FieldType → List Symbol
  | [] => []
  | ⟨_, t, _⟩ :: l => t.symbols ++ symbolsFields l
/-- see `TypeName.symbols` -/
def symbolsMethods : List MethodType → List Symbol
  | [] => []
  | ⟨_, s⟩ :: l => s.symbols ++ symbolsMethods l
end

/-- The last parameter has a slice type. -/
def lastIsSlice (args : List ArgType) : Bool :=
  match args.getLast? with
  | some ⟨_, .slice _⟩ => true
  | _ => false

mutual
/-- A valid type: no component is nil, basic kinds are basic, array lengths are not negative,
channels have a direction, and a variadic signature ends in a slice. -/
def TypeName.valid : TypeName → Bool
  | .nil => false
  | .basic k => k.isBasic
  | .named _ => true
  | .ptr e => e.valid
  | .slice e => e.valid
  | .array e n => e.valid && decide (0 ≤ n)
  | .map e k => e.valid && k.valid
  | .chan e d => e.valid && (d == recvDir || d == sendDir || d == bothDir)
  | .func s => s.valid
  | .struct fs => validFields fs
  | .interface ms _ => validMethods ms
/-- see `TypeName.valid` -/
def Signature.valid : Signature → Bool
  | ⟨args, results, v⟩ => validArgs args && validArgs results && (!v || lastIsSlice args)
/-- see `TypeName.valid` -/
def validArgs : List ArgType → Bool
  | [] => true
  | ⟨_, t⟩ :: l => t.valid && validArgs l
/-- see `TypeName.valid` -/
def validFields : List FieldType → Bool
  | [] => true
  | ⟨_, t, _⟩ :: l => t.valid && validFields l
/-- see `TypeName.valid` -/
def validMethods : List MethodType → Bool
  | [] => true
  | ⟨_, s⟩ :: l => s.valid && validMethods l
end

end Gopoet
