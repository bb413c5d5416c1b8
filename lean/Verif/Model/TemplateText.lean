import Verif.Model.Fmt
import Verif.Model.Template
/-!
# What `text/template` writes for the values of template data (code.go:226-231)

Described exactly: templates that consist of text, of actions that show a value of the data or how many elements it
has (`len`), of loops over slices, arrays, and maps whose keys are strings or numbers, of conditions (`if`, `with`,
`else`, also with `not`, `and`, `or` and `eq`), of other templates that are executed in them, and of variables that
are defined once. A value is named by a path of fields, indices (the function `index` with a number) and keys of maps
that are strings or numbers, which begins at the dot or at a variable. Assignments to variables, templates that
execute themselves, other functions, methods, and the fields of gopoet's own types are not described.
-/

namespace Gopoet

/-- A step from a value to a part of it: a field of a struct by its number, an element of a slice or an array, the
value for a key of a map. -/
inductive TStep where
  | field (k : Nat)
  | elem (k : Nat)
  | key (id : Nat)
  deriving DecidableEq, Repr

/-- The name of a value: a path that begins at the dot or at a variable. Variables are counted from the outside;
number 0 is `$`. -/
structure TPath where
  var : Option Nat := none
  steps : List TStep
  deriving DecidableEq, Repr

/-- What `eq` compares: a value, or a number or string that is given in the template. -/
inductive TArg where
  | path (p : TPath)
  | const (id : Nat)
  deriving DecidableEq, Repr

/-- A condition: `path`, `not c`, `and c d`, `or c d`, `eq a b`. -/
inductive TCond where
  | value (path : TPath)
  | not (c : TCond)
  | and (c d : TCond)
  | or (c d : TCond)
  | eq (a b : TArg)
  deriving DecidableEq, Repr

/-- A part of a template.

* `text`, `{{path}}`, and `{{len path}}`
* `{{$x := path}}` together with the rest of the block, in which the variable can be used
* `{{range $k, $x := path}} body {{else}} other {{end}}`; the variables need not be used. (In `other` they cannot be
  used here.)
* `{{if $x := path}} body {{else}} other {{end}}`, and the same with `with`. The variable need not be used.
* `{{if cond}} body {{else}} other {{end}}`
* `{{template "name" path}}`, where the template that has this name consists of `body` -/
inductive TNode where
  | text (s : GoString)
  | show (path : TPath)
  | size (path : TPath)
  | define (path : TPath) (rest : List TNode)
  | range (path : TPath) (body other : List TNode)
  | when (path : TPath) (body other : List TNode)
  | with (path : TPath) (body other : List TNode)
  | test (cond : TCond) (body other : List TNode)
  | call (path : TPath) (body : List TNode)

/-- What is known about numbers, strings, nil pointers and the like, which are no more than identifiers here: which of
them are true (numbers other than 0, strings that are not empty, no nil pointers), the identifiers of the numbers, the
order of keys (internal/fmtsort), and what `eq` gives (an error for values of different kinds). -/
structure Scalars where
  truth : Nat → Bool
  number : Nat → Nat
  le : Nat → Nat → Bool
  eq : Nat → Nat → Option Bool

/-- text/template's `indirect`: the value behind pointers and interfaces, and whether it is addressable. (What
pointers point to is, what is in an interface is not.) Nil pointers are scalars. -/
def TVal.indirect (addr : Bool) : TVal → Bool × TVal
  | .ptr v => v.indirect true
  | .iface _ v => v.indirect false
  | v => (addr, v)

/-- text/template's `indirectInterface`, applied by `index`. -/
def TVal.inInterfaces (addr : Bool) : TVal → Bool × TVal
  | .iface _ v => v.inInterfaces false
  | v => (addr, v)

/-- The key of a map is the given string or number. -/
def TVal.isKey (id : Nat) : TVal → Bool
  | .scalar a => a == id
  | .iface _ (.scalar a) => a == id
  | _ => false

/-- The value for a key. -/
def entryFor (id : Nat) : List (TVal × TVal) → Option TVal
  | [] => none
  | (k, v) :: es => if k.isKey id then some v else entryFor id es

/-- One step of the evaluation of a path (`evalField`, `index`). Unexported fields cannot be read. The elements of
a slice are addressable, those of an array and the fields of a struct if it is, the values of a map are not. -/
def TStep.next (addr : Bool) (v : TVal) : TStep → Option (Bool × TVal)
  | .field k =>
    match v.indirect addr with
    | (a, .struct fs) =>
      match fs[k]? with
      | some (true, w) => some (a, w)
      | _ => none
    | _ => none
  | .elem k =>
    match v.inInterfaces addr with
    | (_, .slice vs) => vs[k]?.map fun w => (true, w)
    | (a, .array vs) => vs[k]?.map fun w => (a, w)
    | _ => none
  | .key id =>
    match v.indirect addr with
    | (_, .map es) => (entryFor id es).map fun w => (false, w)
    | _ => none

/-- The evaluation of a path. -/
def TVal.follow (addr : Bool) (v : TVal) : List TStep → Option (Bool × TVal)
  | [] => some (addr, v)
  | s :: path => (s.next addr v).bind fun x => x.2.follow x.1 path

/-- The text of the spec: `ConstSpec.String` and so on. -/
def SpecRef.shown (tbl : Nat → Bool) (h : Heap) : SpecRef → Shown
  | .value p => .ofString ((deref h.values p).bind (·.string h))
  | .type p => .ofString ((deref h.types p).bind (·.string tbl h))
  | .func p => .ofString ((deref h.funcs p).bind (·.string h))

/-- The text of a copy of the spec with the parent `&GoFile{PackageName: pkgName}` — model.go:581-599, 787-805,
1088-1096 and 1486-1491. -/
def SpecRef.shownIn (tbl : Nat → Bool) (h : Heap) (pkgName : GoString) : SpecRef → Shown
  | .value p => .ofString ((deref h.values p).bind fun c =>
      .ok (joinWith (b! ", ") (c.names.map fun n => Symbol.string ⟨⟨[], pkgName⟩, n⟩)))
  | .type p => .ofString ((deref h.types p).bind fun t =>
      if t.name = [] then t.underlying.string tbl else .ok (Symbol.string ⟨⟨[], pkgName⟩, t.name⟩))
  | .func p => .ofString ((deref h.funcs p).bind fun f =>
      .ok (if f.receiver = none then Symbol.string ⟨⟨[], pkgName⟩, f.name⟩ else f.name))

/-- text/template's `printableValue` and `fmt.Fprint`. The `String` methods of specs have pointers as receivers, so
they count if the spec is addressable only; those of packages, symbols, and references to methods always do. What
is written for everything else, such as numbers and go/types' and reflect's types, is the parameter `own`. -/
def TVal.shown (tbl : Nat → Bool) (own : TVal → Shown) (h : Heap) (addr : Bool) (v : TVal) : Shown :=
  match v.indirect addr with
  | (_, .package p) => .str p.string
  | (_, .symbol s) => .str s.string
  | (_, .mref m) => .str m.string
  | (_, .typeName t) => .ofString (t.string tbl)
  | (true, .spec r) => r.shown tbl h
  | (true, .specCopy r n) => r.shownIn tbl h n
  | (true, .embed e) => .str e.type.string
  | (true, .method m) => .str m.name
  | (_, w) => own w

/-- The text, where it is described. -/
def Shown.text : Shown → Option GoString
  | .str s => some s
  | .int n => some (decInt n)
  | .other => none

/-- The number or string that the key of a map is. -/
def TVal.keyId : TVal → Option Nat
  | .scalar a => some a
  | .iface _ (.scalar a) => some a
  | _ => none

/-- The entries of a map with the numbers or strings that the keys are, if they are. -/
def keyedEntries : List (TVal × TVal) → Option (List (Nat × (TVal × TVal)))
  | [] => some []
  | e :: es => e.1.keyId.bind fun a => (keyedEntries es).map fun l => (a, e) :: l

/-- The elements with their numbers, which are not addressable. -/
def numberedFrom (sc : Scalars) (n : Nat) : List TVal → List (TVal × TVal)
  | [] => []
  | v :: vs => (.scalar (sc.number n), v) :: numberedFrom sc (n + 1) vs

/-- The entry among sorted ones. -/
def insertByKey {α} (sc : Scalars) (x : Nat × α) : List (Nat × α) → List (Nat × α)
  | [] => [x]
  | y :: l => if sc.le x.1 y.1 then x :: y :: l else y :: insertByKey sc x l

/-- internal/fmtsort's `Sort`: the entries in the order of their keys. -/
def sortByKey {α} (sc : Scalars) : List (Nat × α) → List (Nat × α)
  | [] => []
  | x :: l => insertByKey sc x (sortByKey sc l)

/-- What `range` goes through: whether the elements are addressable, and the elements with their numbers or keys. The
elements of a map are in the order of the keys. -/
def TVal.items (sc : Scalars) (addr : Bool) (v : TVal) : Option (Bool × List (TVal × TVal)) :=
  match v.indirect addr with
  | (_, .slice vs) => some (true, numberedFrom sc 0 vs)
  | (a, .array vs) => some (a, numberedFrom sc 0 vs)
  | (_, .map es) => (keyedEntries es).map fun l => (false, (sortByKey sc l).map (·.2))
  | _ => none

/-- The function `len`. -/
def TVal.size (v : TVal) : Option Nat :=
  match (v.indirect false).2 with
  | .slice vs | .array vs => some vs.length
  | .map es => some es.length
  | _ => none

/-- The texts one after the other, if all are there. -/
def joinAll {α} (f : α → Option GoString) : List α → Option GoString
  | [] => some []
  | a :: l =>
    match f a, joinAll f l with
    | some x, some y => some (x ++ y)
    | _, _ => none

/-- text/template's `isTrue`, after `indirectInterface`: slices, arrays and maps are true if there is something in
them, structs (also those of gopoet) and pointers are. So is a `TypeName`, which is a struct, a pointer, or a
`reflect.Kind` other than 0 (types.go:178). -/
def TVal.truth (sc : Scalars) (v : TVal) : Bool :=
  match (v.inInterfaces false).2 with
  | .scalar id => sc.truth id
  | .slice vs | .array vs => !vs.isEmpty
  | .map es => !es.isEmpty
  | _ => true

/-- The values that paths can begin at, with whether they are addressable. -/
structure TScope where
  dot : Bool × TVal
  vars : List (Bool × TVal)

/-- The value of a path. -/
def TScope.get (σ : TScope) (p : TPath) : Option (Bool × TVal) :=
  (match p.var with
    | none => some σ.dot
    | some n => σ.vars[n]?).bind fun x => x.2.follow x.1 p.steps

/-- The value of what is compared. -/
def TArg.get (σ : TScope) : TArg → Option TVal
  | .path p => (σ.get p).map (·.2)
  | .const id => some (.scalar id)

/-- text/template's `eq` with two arguments, which are numbers, strings and the like. -/
def TVal.equal (sc : Scalars) (v w : TVal) : Option Bool :=
  match (v.inInterfaces false).2, (w.inInterfaces false).2 with
  | .scalar a, .scalar b => sc.eq a b
  | _, _ => none

/-- Whether the condition is true. (All conditions of `and` and `or` are evaluated, as before Go 1.18.) -/
def TCond.eval (sc : Scalars) (σ : TScope) : TCond → Option Bool
  | .value p => (σ.get p).map fun x => x.2.truth sc
  | .not c => (c.eval sc σ).map (!·)
  | .and c d => (c.eval sc σ).bind fun x => (d.eval sc σ).map (x && ·)
  | .or c d => (c.eval sc σ).bind fun x => (d.eval sc σ).map (x || ·)
  | .eq a b => (a.get σ).bind fun v => (b.get σ).bind fun w => v.equal sc w

/-- The scope with one more variable. -/
def TScope.push (σ : TScope) (x : Bool × TVal) : TScope := { σ with vars := σ.vars ++ [x] }

mutual
/-- The execution of a part of a template (text/template's `walk`); `leaf` gives the text of a value. -/
def TNode.run (sc : Scalars) (leaf : Bool → TVal → Option GoString) : TNode → TScope → Option GoString
  | .text s, _ => some s
  | .show path, σ => (σ.get path).bind fun x => leaf x.1 x.2
  | .size path, σ => (σ.get path).bind fun x => x.2.size.bind fun n => leaf false (.scalar (sc.number n))
  | .define path rest, σ => (σ.get path).bind fun x => runNodes sc leaf rest (σ.push x)
  | .range path body other, σ => (σ.get path).bind fun x => (x.2.items sc x.1).bind fun y =>
    if y.2.isEmpty then runNodes sc leaf other σ
    else joinAll (fun e => runNodes sc leaf body ⟨(y.1, e.2), σ.vars ++ [(false, e.1), (y.1, e.2)]⟩) y.2
  | .when path body other, σ => (σ.get path).bind fun x =>
    if x.2.truth sc then runNodes sc leaf body (σ.push x) else runNodes sc leaf other (σ.push x)
  | .with path body other, σ => (σ.get path).bind fun x =>
    if x.2.truth sc then runNodes sc leaf body ⟨x, σ.vars ++ [x]⟩ else runNodes sc leaf other (σ.push x)
  | .test cond body other, σ => (cond.eval sc σ).bind fun b =>
    if b then runNodes sc leaf body σ else runNodes sc leaf other σ
  | .call path body, σ => (σ.get path).bind fun x => runNodes sc leaf body ⟨x, [x]⟩
/-- see `TNode.run` -/
def runNodes (sc : Scalars) (leaf : Bool → TVal → Option GoString) : List TNode → TScope → Option GoString
  | [], _ => some []
  | t :: ts, σ =>
    match t.run sc leaf σ, runNodes sc leaf ts σ with
    | some x, some y => some (x ++ y)
    | _, _ => none
end

/-- `Template.Execute`: the data is in an `interface{}`; it is the dot and `$`. -/
def TScope.start (data : TVal) : TScope := ⟨(false, .iface acceptsAll data), [(false, .iface acceptsAll data)]⟩

/-- see `TScope.start` -/
def execute (tbl : Nat → Bool) (own : TVal → Shown) (sc : Scalars) (h : Heap) (t : List TNode) (data : TVal) :
    Option GoString :=
  runNodes sc (fun a v => (v.shown tbl own h a).text) t (.start data)

end Gopoet
