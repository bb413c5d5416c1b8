import Verif.Model.Reflect
import Verif.Spec.GoTypes
/-!
# The Go type that a reflect.Type denotes

Written from the documentation of package reflect. Every `reflect.Type` is a type that can be
written.
-/

namespace Gopoet

mutual
/-- The Go type. -/
def RT.denotes : RT → GoType TypeIdent
  | .defined _ path n => .name (if path = [] then .builtin n else .declared path n)
  | .ptr e => .ptr e.denotes
  | .slice e => .slice e.denotes
  | .array e n => .array n e.denotes
  | .chan d e => .chan (synDir d) e.denotes
  | .map k e => .map k.denotes e.denotes
  | .func s => .func s.denotes
  | .struct fs => .struct (denoteRFields fs)
  | .interface ms => .iface (denoteRMethods ms)
/-- A function type; reflection does not know names of parameters. -/
def RTSig.denotes : RTSig → GoSig TypeIdent
  | .mk ins outs v => .mk (denoteRVars v ins) v (denoteRVars false outs)
/-- Parameters; of the last parameter of a variadic signature the element type. -/
def denoteRVars (v : Bool) : List RT → List (GoParam TypeIdent)
  | [] => []
  | t :: l => .mk none (if v && l.isEmpty then denoteRElem t else t.denotes) :: denoteRVars v l
/-- The element type of a slice type. -/
def denoteRElem : RT → GoType TypeIdent
  | .slice e => e.denotes
  | _ => .name (.builtin [])
/-- Fields. -/
def denoteRFields : List RTField → List (GoField TypeIdent)
  | [] => []
  | .mk n anonymous t tag :: l =>
    .mk (if anonymous then none else some n) t.denotes (optName tag) :: denoteRFields l
/-- Methods. -/
def denoteRMethods : List RTMethod → List (GoElem TypeIdent)
  | [] => []
  | .mk n s :: l => .method n s.denotes :: denoteRMethods l
end

/-- The last parameter has a slice type. -/
def lastRIsSlice : List RT → Bool
  | [] => false
  | [.slice _] => true
  | [_] => false
  | _ :: l => lastRIsSlice l

mutual
/-- What package reflect guarantees: named types have a name, predeclared types have no package path
and are the basic types under the name of their kind, or `error`; channels have a direction, a
variadic function ends in a slice, fields have names. -/
def RT.wf : RT → Bool
  | .defined k path n =>
    n != [] && (path != [] || (k.isBasic && kindIdent k == .builtin n)
      || (k == .interface && n == b! "error"))
  | .ptr e => e.wf
  | .slice e => e.wf
  | .array e _ => e.wf
  | .chan d e => e.wf && (d == recvDir || d == sendDir || d == bothDir)
  | .map k e => k.wf && e.wf
  | .func s => s.wf
  | .struct fs => wfRFields fs
  | .interface ms => wfRMethods ms
/-- see `RT.wf` -/
def RTSig.wf : RTSig → Bool
  | .mk ins outs v => wfRVars ins && wfRVars outs && (!v || lastRIsSlice ins)
/-- see `RT.wf` -/
def wfRVars : List RT → Bool
  | [] => true
  | t :: l => t.wf && wfRVars l
/-- see `RT.wf` -/
def wfRFields : List RTField → Bool
  | [] => true
  | .mk n _ t _ :: l => n != [] && t.wf && wfRFields l
/-- see `RT.wf` -/
def wfRMethods : List RTMethod → Bool
  | [] => true
  | .mk _ s :: l => s.wf && wfRMethods l
end

mutual
/-- The types that the conversion handles: no map, no function or method with results, no embedded
field. -/
def RT.handled : RT → Bool
  | .defined _ _ _ => true
  | .ptr e => e.handled
  | .slice e => e.handled
  | .array e _ => e.handled
  | .chan _ e => e.handled
  | .map _ _ => false
  | .func s => s.handled
  | .struct fs => handledFields fs
  | .interface ms => handledMethods ms
/-- see `RT.handled` -/
def RTSig.handled : RTSig → Bool
  | .mk ins outs _ => handledVars ins && outs.isEmpty
/-- see `RT.handled` -/
def handledVars : List RT → Bool
  | [] => true
  | t :: l => t.handled && handledVars l
/-- see `RT.handled` -/
def handledFields : List RTField → Bool
  | [] => true
  | .mk _ anonymous t _ :: l => !anonymous && t.handled && handledFields l
/-- see `RT.handled` -/
def handledMethods : List RTMethod → Bool
  | [] => true
  | .mk _ s :: l => s.handled && handledMethods l
end

/-- The kinds of type expressions in package reflect and in gopoet (types.go:13-58). -/
def ReflectKind.composite : ReflectKind → Option TypeKind
  | .ptr => some .ptr
  | .slice => some .slice
  | .array => some .array
  | .map => some .map
  | .chan => some .chan
  | .func => some .func
  | .struct => some .struct
  | .interface => some .interface
  | _ => none

end Gopoet
