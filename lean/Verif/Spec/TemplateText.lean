import Verif.Model.TemplateText
import Verif.Spec.Code
import Verif.Spec.Template
/-!
# Specification vocabulary for templates: what the values that a template shows stand for
-/

namespace Gopoet

/-- The package of a file, if it has one. -/
def filePackage (h : Heap) (f : Ptr) : Option Package :=
  match h.files f with
  | some file => if file.package = ⟨[], []⟩ then none else some file.package
  | none => none

/-- What a spec stands for: the element that it declares in its file. -/
def SpecRef.ref (h : Heap) : SpecRef → Option Reference
  | .value p =>
    match h.values p with
    | some c =>
      match c.names, c.parent with
      | [n], some f => (filePackage h f).map fun pkg => .symbol ⟨pkg, n⟩
      | _, _ => none
    | none => none
  | .type p =>
    match h.types p with
    | some t =>
      match t.name, t.parent with
      | [], _ => none
      | n, some f => (filePackage h f).map fun pkg => .symbol ⟨pkg, n⟩
      | _, none => none
    | none => none
  | .func p =>
    match h.funcs p with
    | some fn =>
      match fn.parent with
      | some f => (filePackage h f).map fun pkg =>
        match fn.receiver with
        | none => .symbol ⟨pkg, fn.name⟩
        | some r => .method ⟨⟨pkg, r.type⟩, fn.name⟩
      | none => none
    | none => none

/-- What a method of an interface stands for: that method of the interface type that it was added to. -/
def InterfaceMethod.ref (h : Heap) (m : InterfaceMethod) : Option Reference :=
  match m.parent with
  | some tp =>
    match SpecRef.ref h (.type tp) with
    | some (.symbol s) => some (.method ⟨s, m.name⟩)
    | _ => none
  | none => none

/-- The reference that a conversion gives. -/
def convertedRef : Outcome TypeName → Option Reference
  | .ok t => some (.type t)
  | _ => none

/-- see `convertedRef` -/
def objectRef : Outcome SymbolOrMethodRef → Option Reference
  | .ok (.symbol s) => some (.symbol s)
  | .ok (.method m) => some (.method m)
  | _ => none

/-- What a value in the data stands for, if it is a reference of one of gopoet's kinds: itself, the element that
the spec declares, the type that an embed names, or what the conversions from go/types and reflect give. Specs
count if they are addressable only (otherwise they have no `String` method). -/
def TVal.ref (h : Heap) (addr : Bool) : TVal → Option Reference
  | .ptr v => v.ref h true
  | .iface acc v =>
    match v with
    | .typeName t => if acc.typeName then some (.type t) else none
    | .reflectType t => convertedRef (typeNameForReflectType t)
    | .goType t => convertedRef (typeNameForGoType t)
    | .goObject o => objectRef (symbolForGoObject o)
    | .goPackage g => some (.package ⟨g.path, g.name⟩)
    | v => v.ref h false
  | .package p => some (.package p)
  | .symbol s => some (.symbol s)
  | .mref m => some (.method m)
  | .embed e => if addr then some (.symbol e.type) else none
  | .spec r => if addr then r.ref h else none
  | .method m => if addr then m.ref h else none
  | _ => none

/-- A value of go/types or reflect. -/
def TVal.foreign : TVal → Bool
  | .ptr v => v.foreign
  | .iface _ v => v.foreign
  | .reflectType _ | .goType _ | .goObject _ | .goPackage _ => true
  | _ => false

/-- A method that is given as a spec: its `String` method gives the bare name. -/
def TVal.methodSpec (h : Heap) : TVal → Bool
  | .ptr v => v.methodSpec h
  | .iface _ v => v.methodSpec h
  | .spec (.func p) =>
    match h.funcs p with
    | some fn => fn.receiver.isSome
    | none => false
  | .method _ => true
  | _ => false

/-- The value will be shown as the reference that it stands for: it is no spec of a method, and if it is a value
of go/types or reflect then it is replaced, or its own `String` method gives the right text. -/
def TVal.ShownRight (tbl : Nat → Bool) (own : TVal → Shown) (h : Heap) (k : Imports) (addr : Bool) (v : TVal) : Prop :=
  v.methodSpec h = false ∧ (v.foreign = true → v.requalify h k.qualifierOf ≠ v ∨
    ∃ r s, v.ref h addr = some r ∧ r.text tbl k = .ok s ∧ v.shown tbl own h addr = .str s)

/-- The text that a value should have in a file with the given imports: that of the reference, or its own if it is
a number, a string and so on. -/
def TVal.means (tbl : Nat → Bool) (own : TVal → Shown) (h : Heap) (k : Imports) (addr : Bool) (v : TVal) : Option GoString :=
  match v.ref h addr with
  | some r =>
    match r.text tbl k with
    | .ok s => some s
    | _ => none
  | none =>
    match (v.indirect addr).2 with
    | .scalar id => (own (.scalar id)).text
    | _ => none

/-- The text that the template should give for the data in a file with the given imports. -/
def templateMeans (tbl : Nat → Bool) (own : TVal → Shown) (sc : Scalars) (h : Heap) (k : Imports) (t : List TNode)
    (data : TVal) : Option GoString :=
  runNodes sc (fun a v => v.means tbl own h k a) t (.start data)

mutual
/-- The values that are shown. -/
def TNode.shows (sc : Scalars) : TNode → TScope → List (Bool × TVal)
  | .text _, _ => []
  | .show path, σ => (σ.get path).toList
  | .size _, _ => []
  | .define path rest, σ =>
    match σ.get path with
    | some x => showsNodes sc rest (σ.push x)
    | none => []
  | .range path body other, σ =>
    match (σ.get path).bind fun x => x.2.items sc x.1 with
    | some y =>
      if y.2.isEmpty then showsNodes sc other σ
      else y.2.flatMap fun e => showsNodes sc body ⟨(y.1, e.2), σ.vars ++ [(false, e.1), (y.1, e.2)]⟩
    | none => []
  | .when path body other, σ =>
    match σ.get path with
    | some x => if x.2.truth sc then showsNodes sc body (σ.push x) else showsNodes sc other (σ.push x)
    | none => []
  | .with path body other, σ =>
    match σ.get path with
    | some x => if x.2.truth sc then showsNodes sc body ⟨x, σ.vars ++ [x]⟩ else showsNodes sc other (σ.push x)
    | none => []
  | .test cond body other, σ =>
    match cond.eval sc σ with
    | some b => if b then showsNodes sc body σ else showsNodes sc other σ
    | none => []
  | .call path body, σ =>
    match σ.get path with
    | some x => showsNodes sc body ⟨x, [x]⟩
    | none => []
/-- see `TNode.shows` -/
def showsNodes (sc : Scalars) : List TNode → TScope → List (Bool × TVal)
  | [], _ => []
  | t :: ts, σ => t.shows sc σ ++ showsNodes sc ts σ
end

/-- The value counts as empty in conditions: it is a scalar that is not true, or there are no elements in it. -/
def TVal.EmptyValue (v : TVal) (sc : Scalars) : Bool :=
  match v with
  | .iface _ w => w.EmptyValue sc
  | .scalar id => !sc.truth id
  | .slice [] | .array [] | .map [] => true
  | _ => false

/-- Nothing that the names of the specs consist of is different in `g`. -/
structure SpecNamesStay (h g : Heap) : Prop where
  values : ∀ p c, h.values p = some c → ∃ c', g.values p = some c' ∧ c'.names = c.names ∧ c'.parent = c.parent
  types : ∀ p t, h.types p = some t → ∃ t', g.types p = some t' ∧ t'.name = t.name ∧ t'.parent = t.parent
  funcs : ∀ p f, h.funcs p = some f → ∃ f', g.funcs p = some f' ∧ f'.name = f.name ∧ f'.receiver = f.receiver ∧
    f'.parent = f.parent
  files : ∀ p f, h.files p = some f → ∃ f', g.files p = some f' ∧ f'.package = f.package

/-- What go/types writes for named types: the path of the package, a dot, and the name. -/
def GoTypeTexts (own : TVal → Shown) : Prop :=
  ∀ p n, own (.goType (.named ⟨some p, n⟩)) = .str (p.path ++ b! "." ++ n)

end Gopoet
