import Verif.Proof.GoTypesLemmas
import Verif.Proof.ReflectLemmas
/-!
# Properties C23, C24, C25: conversion from go/types and reflect
-/

namespace Gopoet

/-! ## C23 -/

/-- C23 as stated in properties.jsonl: whatever can be written as a Go type is converted to a type
name that denotes it, everything else panics. The hypotheses are what go/types guarantees of its
values; packages have paths. This is refuted by `C23_full_fails`. -/
def C23_full : Prop :=
  ∀ t : GT, t.wf = true → (∀ n ∈ t.names, ∀ p, n.pkg = some p → p.path ≠ []) →
    match t.denotes with
    | some d => ∃ n, typeNameForGoType t = .ok n ∧ n.valid = true ∧ n.meaning Symbol.ident = d
    | none => typeNameForGoType t = .panic

/-- C23 for types in which every named type belongs to a package (missing: `error`, see
`C23_full_fails`). The converted type is valid, denotes the same type and mentions the same names in
the same packages, package names included. -/
theorem C23_faithful_partial (t : GT) (hw : t.wf = true)
    (hp : ∀ n ∈ t.names, ∃ p, n.pkg = some p ∧ p.path ≠ []) :
    match t.denotes with
    | some d => ∃ n, typeNameForGoType t = .ok n ∧ n.valid = true ∧ n.meaning Symbol.ident = d ∧
        n.symbols.map (fun s => (some (TypesPackage.mk s.package.importPath s.package.name), s.name))
          = t.names.map (fun n => (n.pkg, n.name))
    | none => typeNameForGoType t = .panic := by
  rcases conv_type t hw hp with ⟨n, h1, h2, h3, h4⟩ | ⟨h1, h2⟩
  · rw [h3]
    refine ⟨n, h1, h2, rfl, ?_⟩
    rw [h4, List.map_map]
    apply List.map_congr_left
    intro x hx
    obtain ⟨p, hx, _⟩ := hp x hx
    simp [TypesName.toSymbol, hx]
  · rw [h2]; exact h1

/-- Exactly which types are converted: those that can be written and mention no named type of the
universe block. -/
theorem C23_converts_iff (t : GT) (hw : t.wf = true)
    (hp : ∀ n ∈ t.names, ∀ p, n.pkg = some p → p.path ≠ []) :
    (∃ n, typeNameForGoType t = .ok n) ↔
      (t.denotes.isSome = true ∧ ∀ n ∈ t.names, n.pkg ≠ none) := by
  constructor
  · rintro ⟨n, hn⟩
    have hu := conv_pkg hn
    have hp' : ∀ n ∈ t.names, ∃ p, n.pkg = some p ∧ p.path ≠ [] := by
      intro x hx
      cases h : x.pkg with
      | none => exact absurd h (hu x hx)
      | some p => exact ⟨p, rfl, hp x hx p h⟩
    refine ⟨?_, hu⟩
    rcases conv_type t hw hp' with ⟨m, _, _, h3, _⟩ | ⟨h1, _⟩
    · rw [h3]; rfl
    · rw [hn] at h1; cases h1
  · rintro ⟨hd, hu⟩
    have hp' : ∀ n ∈ t.names, ∃ p, n.pkg = some p ∧ p.path ≠ [] := by
      intro x hx
      cases h : x.pkg with
      | none => exact absurd h (hu x hx)
      | some p => exact ⟨p, rfl, hp x hx p h⟩
    rcases conv_type t hw hp' with ⟨m, h1, _⟩ | ⟨_, h2⟩
    · exact ⟨m, h1⟩
    · rw [h2] at hd; cases hd

/-- The type `error` as go/types has it. -/
def gtError : GT := .named ⟨none, b! "error"⟩

/-- `error` can be written, but the conversion panics: the object of `error` has no package, and
`PackageForGoType` dereferences it. -/
theorem C23_full_fails : ¬ C23_full := by
  intro h
  have := h gtError rfl (by intro n hn p hp; simp [gtError, GT.names] at hn; subst hn; cases hp)
  simp only [gtError, GT.denotes] at this
  obtain ⟨n, hn, _⟩ := this
  cases hn

/-- So does every type that mentions `error`, e.g. `func() error`. -/
theorem C23_universe_types_panic (t : GT) (h : ∃ n ∈ t.names, n.pkg = none) :
    ∀ n, typeNameForGoType t ≠ .ok n := by
  intro n hn
  obtain ⟨x, hx, h⟩ := h
  exact conv_pkg hn x hx h

/-- A rich example: `func(w io.Writer, m map[string][4]*struct{ io.Reader; A, b chan<- int "tag" },
rest ...unsafe.Pointer) (interface{ io.Closer; M() })` -/
def exGT : GT :=
  let io := fun n => GT.named ⟨some ⟨b! "io", b! "io"⟩, n⟩
  .signature (.mk .none
    [.mk (b! "w") (io (b! "Writer")),
     .mk (b! "m") (.map (.basic .string) (.array (.pointer (.struct
        [.mk (b! "Reader") true (io (b! "Reader")) [],
         .mk (b! "b") false (.chan .sendOnly (.basic .int)) (b! "tag")])) 4)),
     .mk (b! "rest") (.slice (.basic .unsafePointer))]
    [.mk [] (.interface [some ⟨some ⟨b! "io", b! "io"⟩, b! "Closer"⟩]
      [.mk (b! "M") (.mk .iface [] [] false)])] true)

example : exGT.wf = true := by rfl
example : typeNameForGoType exGT = .ok (.func
    ⟨[⟨b! "w", .named ⟨⟨b! "io", b! "io"⟩, b! "Writer"⟩⟩,
      ⟨b! "m", .map (.array (.ptr (.struct
        [⟨[], .named ⟨⟨b! "io", b! "io"⟩, b! "Reader"⟩, []⟩,
         ⟨b! "b", .chan (.basic .int) sendDir, b! "tag"⟩])) 4) (.basic .string)⟩,
      ⟨b! "rest", .slice (.named ⟨⟨b! "unsafe", b! "unsafe"⟩, b! "Pointer"⟩)⟩],
     [⟨[], .interface [⟨b! "M", ⟨[], [], false⟩⟩] [⟨⟨b! "io", b! "io"⟩, b! "Closer"⟩]⟩], true⟩) := by
  rfl
example : exGT.denotes.isSome = true := by rfl
/-- a method signature: the receiver comes first -/
example : typeNameForGoType (.signature (.mk
      (.concrete (b! "b") (.pointer (.named ⟨some ⟨b! "bytes", b! "bytes"⟩, b! "Buffer"⟩)))
      [.mk (b! "p") (.slice (.basic .uint8))] [.mk (b! "n") (.basic .int)] false)) =
    .ok (.func ⟨[⟨b! "b", .ptr (.named ⟨⟨b! "bytes", b! "bytes"⟩, b! "Buffer"⟩)⟩,
      ⟨b! "p", .slice (.basic .uint8)⟩], [⟨b! "n", .basic .int⟩], false⟩) := by rfl
example : typeNameForGoType (.basic .untypedNil) = .panic := by rfl
example : typeNameForGoType (.signature (.mk .none [] [.mk [] gtError] false)) = .panic := by rfl

/-! ## C24 -/

/-- C24 as stated in properties.jsonl; refuted by the theorems below. -/
def C24_full : Prop :=
  ∀ t : RT, t.wf = true →
    ∃ n, typeNameForReflectType t = .ok n ∧ n.valid = true ∧ n.meaning Symbol.ident = t.denotes

/-- C24 for types without maps, functions with results and embedded fields, which the code does not
handle (see the theorems below). -/
theorem C24_faithful_partial (t : RT) (hw : t.wf = true) (hh : t.handled = true) :
    ∃ n, typeNameForReflectType t = .ok n ∧ n.valid = true ∧ n.meaning Symbol.ident = t.denotes :=
  rconv_type t hw hh

/-- C24: and for no others: for every other type the conversion panics, gives a type that is not valid or gives
another type. -/
theorem C24_faithful_iff (t : RT) (hw : t.wf = true) :
    (∃ n, typeNameForReflectType t = .ok n ∧ n.valid = true ∧ n.meaning Symbol.ident = t.denotes) ↔
      t.handled = true :=
  ⟨fun ⟨n, h1, h2, h3⟩ => handled_type t n hw h1 h2 h3, rconv_type t hw⟩

/-- C24: the first two tests of `TypeNameForReflectType` (types.go:562-571) decide by kind, package path and name: a
predeclared type of a basic kind becomes the basic type … -/
theorem C24_basic {t : RT} (hk : t.kind.isBasic = true) (hp : t.pkgPath = []) :
    typeNameForReflectType t = basicType t.kind := by
  cases t with
  | defined k p n =>
    obtain rfl : p = [] := hp
    rw [typeNameForReflectType, if_pos (by simpa [RT.kind] using hk)]
    rfl
  | _ => cases hk

/-- … any other type with a name becomes a named type with that name and package path … -/
theorem C24_named {t : RT} (h : t.kind.isBasic = false ∨ t.pkgPath ≠ []) (hn : t.name ≠ []) :
    typeNameForReflectType t = .ok (.named ⟨⟨t.pkgPath, []⟩, t.name⟩) := by
  cases t with
  | defined k p n =>
    rw [typeNameForReflectType, if_neg, if_pos (show n ≠ [] from hn)]
    · rfl
    · rcases h with h | h
      · simp only [RT.kind] at h
        simp [h]
      · simp only [RT.pkgPath] at h
        simp [h]
  | _ => exact absurd rfl hn

/-- … and the kind of a type without name is that of the type it is converted to. -/
theorem C24_kind {t : RT} {n : TypeName} (hw : t.wf = true) (hn : t.name = []) (h : typeNameForReflectType t = .ok n) :
    ∃ k, t.kind.composite = some k ∧ n.kind = .ok k := by
  cases t with
  | defined k p n =>
    obtain rfl : n = [] := hn
    simp [RT.wf] at hw
  | ptr e =>
    obtain ⟨a, -, h2⟩ := bind_eq_ok h
    unfold pointerType at h2
    split at h2
    · cases h2
    · cases h2; exact ⟨_, rfl, rfl⟩
  | slice e =>
    obtain ⟨a, -, h2⟩ := bind_eq_ok h
    unfold sliceType at h2
    split at h2
    · cases h2
    · cases h2; exact ⟨_, rfl, rfl⟩
  | array e l =>
    obtain ⟨a, -, h2⟩ := bind_eq_ok h
    unfold arrayType at h2
    split at h2
    · cases h2
    · cases h2; exact ⟨_, rfl, rfl⟩
  | chan d e =>
    obtain ⟨a, -, h2⟩ := bind_eq_ok h
    unfold channelType at h2
    dsimp only at h2
    generalize (if d = 0 then bothDir else d) = d' at h2
    split at h2
    · cases h2
    · cases h2; exact ⟨_, rfl, rfl⟩
  | map k e => cases h
  | func s =>
    obtain ⟨a, -, h2⟩ := bind_eq_ok h
    unfold funcTypeFromSig at h2
    repeat' split at h2
    all_goals first | (cases h2; exact ⟨_, rfl, rfl⟩) | cases h2
  | struct fs =>
    obtain ⟨a, -, h2⟩ := bind_eq_ok h
    cases h2; exact ⟨_, rfl, rfl⟩
  | interface ms =>
    obtain ⟨a, -, h2⟩ := bind_eq_ok h
    cases h2; exact ⟨_, rfl, rfl⟩

example : typeNameForReflectType (.defined .int64 (b! "time") (b! "Duration")) =
    .ok (.named ⟨⟨b! "time", []⟩, b! "Duration"⟩) := C24_named (.inr (by decide)) (by decide)
example : typeNameForReflectType (.defined .int64 [] (b! "int64")) = .ok (.basic .int64) := C24_basic rfl rfl

/-- Every map type panics. -/
theorem C24_full_fails_maps (k e : RT) : typeNameForReflectType (.map k e) = .panic := rfl

/-- Every function type with results panics (or, nested in it, something else does): the results are
written into the arguments and the result types stay nil. -/
theorem C24_full_fails_results (ins outs : List RT) (v : Bool) (h : outs ≠ []) :
    ∀ n, typeNameForReflectType (.func (.mk ins outs v)) ≠ .ok n := by
  intro n hn
  obtain ⟨s, hs, hn⟩ := bind_eq_ok hn
  obtain ⟨as, _, hs⟩ := bind_eq_ok hs
  obtain ⟨bs, _, hs⟩ := bind_eq_ok hs
  cases hs
  cases outs with
  | nil => exact h rfl
  | cons o os =>
    unfold funcTypeFromSig at hn
    simp only [List.length_cons, List.replicate_succ, List.any_cons, TypeName.isNil, Bool.true_or,
      if_true] at hn
    split at hn <;> cases hn

/-- An embedded field is turned into a field with a name: `struct{ io.Reader }` becomes
`struct{ Reader io.Reader }`. -/
theorem C24_full_fails_embedded :
    typeNameForReflectType (.struct [.mk (b! "Reader") true
      (.defined .interface (b! "io") (b! "Reader")) []]) =
      .ok (.struct [⟨b! "Reader", .named ⟨⟨b! "io", []⟩, b! "Reader"⟩, []⟩]) ∧
    (RT.struct [.mk (b! "Reader") true (.defined .interface (b! "io") (b! "Reader")) []]).denotes =
      .struct [.mk none (.name (.declared (b! "io") (b! "Reader"))) none] := ⟨rfl, rfl⟩

/-- A method with a result inside an interface does not panic but yields a type that is not valid:
`interface{ Len(x string) int }` becomes `interface{ Len(x int) <nil> }`. -/
theorem C24_full_fails_methods :
    typeNameForReflectType (.interface [.mk (b! "Len")
      (.mk [.defined .string [] (b! "string")] [.defined .int [] (b! "int")] false)]) =
      .ok (.interface [⟨b! "Len", ⟨[⟨[], .basic .int⟩], [⟨[], .nil⟩], false⟩⟩] []) := rfl

theorem C24_full_fails : ¬ C24_full := by
  intro h
  obtain ⟨n, hn, _⟩ := h (.map (.defined .int [] (b! "int")) (.defined .int [] (b! "int"))) rfl
  cases hn

/-- `func([]byte, ...*io.Writer)` in a struct, with `error` and a channel -/
def exRT : RT :=
  .struct [.mk (b! "F") false (.func (.mk [.slice (.defined .uint8 [] (b! "uint8")),
      .slice (.ptr (.defined .interface (b! "io") (b! "Writer")))] [] true)) (b! "tag"),
    .mk (b! "e") false (.array (.chan recvDir (.defined .interface [] (b! "error"))) 3) []]

example : exRT.wf = true ∧ exRT.handled = true := ⟨rfl, rfl⟩
example : typeNameForReflectType exRT = .ok (.struct
    [⟨b! "F", .func ⟨[⟨[], .slice (.basic .uint8)⟩,
        ⟨[], .slice (.ptr (.named ⟨⟨b! "io", []⟩, b! "Writer"⟩))⟩], [], true⟩, b! "tag"⟩,
     ⟨b! "e", .array (.chan errorType recvDir) 3, []⟩]) := by rfl

/-! ## C25 -/

/-- The receiver of a method: a named type or a pointer to one. -/
inductive ReceiverOf : GT → TypesName → Prop
  | value (n) : ReceiverOf (.named n) n
  | pointer (n) : ReceiverOf (.pointer (.named n)) n

/-- What a go/types object stands for: methods have a receiver. -/
inductive RefersTo : TypesObject → SymbolOrMethodRef → Prop
  | method {pkg name recv n} (h : ReceiverOf recv n) :
    RefersTo (.func pkg name (some recv)) (.method ⟨n.toSymbol, name⟩)
  | function {pkg name} :
    RefersTo (.func pkg name none) (.symbol (TypesName.toSymbol ⟨pkg, name⟩))
  | other {pkg name} : RefersTo (.other pkg name) (.symbol (TypesName.toSymbol ⟨pkg, name⟩))

/-- C25 as stated in properties.jsonl; refuted by `C25_full_fails` (objects of the universe block). -/
def C25_full : Prop :=
  ∀ o r, RefersTo o r → symbolForGoObject o = .ok r

/-- C25 for objects that belong to a package, and methods whose receiver type does. -/
theorem C25_refers_partial (o : TypesObject) (r : SymbolOrMethodRef) (h : RefersTo o r)
    (ho : o.pkg ≠ none) (hr : ∀ m, r = .method m → m.type.package ≠ ⟨[], []⟩) :
    symbolForGoObject o = .ok r := by
  cases h with
  | method h =>
    rename_i pkg name recv n
    have hn : n.pkg ≠ none := by
      intro hn
      exact hr _ rfl (by simp [TypesName.toSymbol, hn])
    cases hp : n.pkg with
    | none => exact absurd hp hn
    | some p =>
      have : symbolForTypesName n = .ok n.toSymbol := by
        simp [symbolForTypesName, packageForGoType, hp, TypesName.toSymbol]
      cases h with
      | value =>
        simp [symbolForGoObject, methodRefForGoObject, throughPointer, typeNameForGoType, this, namedType,
          TypeName.kind, TypeName.symbol]
      | pointer =>
        simp [symbolForGoObject, methodRefForGoObject, throughPointer, typeNameForGoType, this, namedType,
          TypeName.kind, TypeName.symbol, pointerType, TypeName.isNil, TypeName.elem]
  | function =>
    rename_i pkg name
    cases pkg with
    | none => exact absurd rfl ho
    | some p => rfl
  | other =>
    rename_i pkg name
    cases pkg with
    | none => exact absurd rfl ho
    | some p => rfl

/-- Whatever is returned is a method reference exactly for methods, with the object's name. -/
theorem C25_methods_iff (o : TypesObject) (r : SymbolOrMethodRef) (h : symbolForGoObject o = .ok r) :
    ((∃ pkg name recv, o = .func pkg name (some recv)) ↔ ∃ m, r = .method m) ∧
    (∀ m, r = .method m → m.method = o.name) ∧
    (∀ s, r = .symbol s → s.name = o.name ∧
      o.pkg = some ⟨s.package.importPath, s.package.name⟩) := by
  cases o with
  | func pkg name recv =>
    cases recv with
    | none =>
      obtain ⟨p, hp, h⟩ := bind_eq_ok h
      cases h
      cases pkg with
      | none => cases hp
      | some q => cases hp; simp [Package.symbol, TypesObject.pkg]
    | some recv =>
      obtain ⟨t, _, h⟩ := bind_eq_ok h
      obtain ⟨t', _, h⟩ := bind_eq_ok h
      obtain ⟨s, _, h⟩ := bind_eq_ok h
      cases h
      simp [TypesObject.name]
  | other pkg name =>
    obtain ⟨p, hp, h⟩ := bind_eq_ok h
    cases h
    cases pkg with
    | none => cases hp
    | some q => cases hp; simp [Package.symbol, TypesObject.pkg]

/-- Objects of the universe block have no package: `SymbolForGoObject` panics for the object of
`error`, for `len` and for the method `Error` of `error`. -/
theorem C25_full_fails :
    ¬ C25_full ∧
    symbolForGoObject (.other none (b! "error")) = .panic ∧
    symbolForGoObject (.func none (b! "Error") (some gtError)) = .panic := by
  refine ⟨?_, rfl, rfl⟩
  intro h
  have := h (.other none (b! "error")) _ .other
  cases this

/-- C25: exactly which objects are converted to what they refer to: methods whose receiver type belongs to a package,
and other objects that do. All others panic. -/
theorem C25_refers_iff_partial (o : TypesObject) (r : SymbolOrMethodRef) (h : RefersTo o r) :
    (symbolForGoObject o = .ok r ↔
      match o with
      | .func _ _ (some recv) => ∃ n p, ReceiverOf recv n ∧ n.pkg = some p
      | o => o.pkg ≠ none) ∧
    (symbolForGoObject o ≠ .ok r → symbolForGoObject o = .panic) := by
  cases h with
  | method h =>
    rename_i pkg name recv n
    cases h <;> cases hp : n.pkg <;>
      simp [symbolForGoObject, methodRefForGoObject, throughPointer, typeNameForGoType, symbolForTypesName,
        packageForGoType, hp, TypesName.toSymbol, namedType, TypeName.kind, TypeName.symbol, pointerType,
        TypeName.isNil, TypeName.elem]
    · rintro n' (_ | _) p h; simp_all
    · exact ⟨n, ⟨.value n, ⟨_, hp⟩⟩⟩
    · rintro n' (_ | _) p h; simp_all
    · exact ⟨n, ⟨.pointer n, ⟨_, hp⟩⟩⟩
  | function =>
    rename_i pkg name
    cases pkg <;> simp [symbolForGoObject, packageForGoType, TypesObject.pkg, TypesObject.name, Package.symbol, TypesName.toSymbol]
  | other =>
    rename_i pkg name
    cases pkg <;> simp [symbolForGoObject, packageForGoType, TypesObject.pkg, TypesObject.name, Package.symbol, TypesName.toSymbol]

/-- A method of an interface literal has no named receiver; the reference then has an empty type. -/
theorem C25_interface_literal (pkg : Option TypesPackage) (name : GoString) :
    symbolForGoObject (.func pkg name (some (.interface [] [.mk name (.mk .iface [] [] false)]))) =
      .ok (.method ⟨Symbol.zero, name⟩) := rfl

example : symbolForGoObject (.func (some ⟨b! "bytes", b! "bytes"⟩) (b! "Write")
      (some (.pointer (.named ⟨some ⟨b! "bytes", b! "bytes"⟩, b! "Buffer"⟩)))) =
    .ok (.method ⟨⟨⟨b! "bytes", b! "bytes"⟩, b! "Buffer"⟩, b! "Write"⟩) := by rfl
example : symbolForGoObject (.func (some ⟨b! "x/yaml.v2", b! "yaml"⟩) (b! "Marshal") none) =
    .ok (.symbol ⟨⟨b! "x/yaml.v2", b! "yaml"⟩, b! "Marshal"⟩) := by rfl

end Gopoet
