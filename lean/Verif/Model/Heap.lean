import Verif.Model.Imports
import Verif.Model.GoTypes
import Verif.Model.Reflect
import Verif.Model.Render
/-!
# The memory that holds files, specs and code blocks (model.go, code.go)

Specs are shared, mutable Go structs, so they live in a heap: one table per struct type, addressed by
`Ptr`; an address that is not in the table is a nil pointer. `TypeName`, `Signature`, `Symbol` and
`ReceiverSpec` values are held by value. For signatures and types `Verif.Model.SigMemory` tells when this is right:
a type made by `FuncTypeFromSig` or by `FuncSpec.ToTypeName` of a function without receiver is a pointer to the
signature, and changes with it.
`ConstSpec`/`ConstDecl` (model.go:408-411, 517-523) and `VarSpec`/`VarDecl` (model.go:644-647, 724-730) have, word for
word, the same fields and methods; here they are one type with a keyword.
-/

namespace Gopoet

/-- An address. -/
abbrev Ptr := Nat

/-- `TypeNameOrSpec` — model.go:1184-1186: nil, a `TypeName`, or a `*TypeSpec`. -/
inductive TypeRef where
  | nil
  | name (t : TypeName)
  | spec (p : Ptr)

/-- An element of a code block — code.go:29-33, 126-129: a `line`, whose argument slice is shared by all its
copies, or a `*templ`. -/
inductive CodeElem where
  | line (format : GoString) (args : Ptr)
  | templ (p : Ptr)
  deriving DecidableEq, Repr

/-- `CodeBlock` — code.go:22-24. -/
abbrev CodeBlock := List CodeElem

/-- Distinguishes `ConstSpec`/`ConstDecl` from `VarSpec`/`VarDecl`. -/
inductive ValueKind where
  | const | var
  deriving DecidableEq, Repr

/-- `ConstSpec` — model.go:517-523 — and `VarSpec` — model.go:724-730. -/
structure ValueSpec where
  kind : ValueKind
  comment : GoString := []
  names : List GoString
  type : TypeRef := .nil
  init : Option Ptr := none
  parent : Option Ptr := none

/-- `ConstDecl` — model.go:408-411 — and `VarDecl` — model.go:644-647. -/
structure ValueDecl where
  kind : ValueKind
  comment : GoString := []
  specs : List Ptr

/-- `FieldSpec` — model.go:1189-1194. -/
structure FieldSpec where
  comment : GoString := []
  name : GoString
  tag : GoString := []
  type : TypeRef
  parent : Option Ptr := none

/-- `InterfaceEmbed` — model.go:1269-1273. -/
structure InterfaceEmbed where
  comment : GoString := []
  type : Symbol
  parent : Option Ptr := none
  deriving DecidableEq

/-- `InterfaceMethod` — model.go:1315-1319. -/
structure InterfaceMethod where
  comment : GoString := []
  name : GoString
  signature : Signature
  parent : Option Ptr := none

/-- `InterfaceElement` — model.go:1261-1266: an `*InterfaceEmbed` or an `*InterfaceMethod`. -/
inductive IfaceElem where
  | embed (p : Ptr)
  | method (p : Ptr)
  deriving DecidableEq, Repr

/-- `TypeSpec` — model.go:926-933. -/
structure TypeSpec where
  comment : GoString := []
  name : GoString
  isAlias : Bool := false
  underlying : TypeName
  structBody : List Ptr := []
  interfaceBody : List IfaceElem := []
  parent : Option Ptr := none

/-- `TypeDecl` — model.go:850-853. -/
structure TypeDecl where
  comment : GoString := []
  types : List Ptr

/-- `ReceiverSpec` — model.go:1642-1646. -/
structure ReceiverSpec where
  name : GoString
  type : GoString
  isPointer : Bool := false
  deriving DecidableEq, Repr

/-- `FuncSpec` — model.go:1427-1433. -/
structure FuncSpec where
  comment : GoString := []
  name : GoString
  receiver : Option ReceiverSpec := none
  signature : Signature := ⟨[], [], false⟩
  code : CodeBlock := []
  parent : Option Ptr := none

/-- `FileElement` — model.go:390-395. -/
inductive FileElem where
  | values (p : Ptr)
  | types (p : Ptr)
  | func (p : Ptr)
  deriving DecidableEq, Repr

/-- `GoFile` — model.go:140-160. -/
structure GoFile where
  imports : Imports
  name : GoString
  fileComment : GoString := []
  packageComment : GoString := []
  packageName : GoString
  canonicalImportPath : GoString := []
  elements : List FileElem := []

/-- `GoFile.Package` — model.go:336-341. -/
def GoFile.package (f : GoFile) : Package := { name := f.packageName, importPath := f.imports.pkgPath }

/-- An argument of `Printf` (an `interface{}`), by the type switch of code.go:137-216. Pointers to
`Package`, `Symbol`, `MethodReference` and `Signature` are taken with what they point to. The text
of a reflect or go/types argument is what its `String` method returns. -/
inductive Arg where
  | str (s : GoString)
  | int (n : Int)
  | package (p : Package)
  | packagePtr (p : Package)
  | symbol (s : Symbol)
  | symbolPtr (s : Symbol)
  | mref (m : MethodReference)
  | mrefPtr (m : MethodReference)
  | sig (s : Signature)
  | sigPtr (s : Signature)
  | typeName (t : TypeName)
  | value (p : Ptr)
  | typeSpec (p : Ptr)
  | ifaceMethod (p : Ptr)
  | func (p : Ptr)
  | ifaceEmbed (p : Ptr)
  | field (p : Ptr)
  | reflectType (t : RT) (text : GoString)
  | goType (t : GT) (text : GoString)
  | goObject (o : TypesObject) (text : GoString)
  | goPackage (p : TypesPackage) (text : GoString)
  | other (id : Nat)

/-- The struct types with a `parent *GoFile` that templates.go treats alike (lines 93-134). -/
inductive SpecRef where
  | value (p : Ptr)
  | type (p : Ptr)
  | func (p : Ptr)
  deriving DecidableEq, Repr

/-- Which of the types that template qualification can put into an interface implement it
(`newRv.Type().Implements(data.Type())`, templates.go:56). -/
structure Accepts where
  typeName : Bool
  symbol : Bool
  mref : Bool
  package : Bool
  deriving DecidableEq, Repr

/-- The type `interface{}`. -/
def acceptsAll : Accepts := ⟨true, true, true, true⟩

/-- Template data, as `reflect.Value`s (templates.go): a tree, so sharing and cycles inside of the
data are not represented. Values of types outside of gopoet, reflect and go/types that contain no
other values are `scalar`s (also nil pointers and nil interfaces). -/
inductive TVal where
  | scalar (id : Nat)
  | package (p : Package)
  | symbol (s : Symbol)
  | mref (m : MethodReference)
  | signature (s : Signature)
  /-- the struct that a spec pointer points to -/
  | spec (r : SpecRef)
  /-- a copy of that struct whose parent is `&GoFile{PackageName: pkgName}` -/
  | specCopy (r : SpecRef) (pkgName : GoString)
  | embed (e : InterfaceEmbed)
  | method (m : InterfaceMethod)
  | imports
  /-- dynamic values of interfaces -/
  | typeName (t : TypeName)
  | reflectType (t : RT)
  | goType (t : GT)
  | goObject (o : TypesObject)
  | goPackage (p : TypesPackage)
  | iface (accepts : Accepts) (v : TVal)
  | ptr (v : TVal)
  /-- fields, with whether they are exported -/
  | struct (fields : List (Bool × TVal))
  | array (elems : List TVal)
  | slice (elems : List TVal)
  /-- entries in the order in which `MapKeys` returns them -/
  | map (entries : List (TVal × TVal))

/-- `templ` — code.go:219-222; the template is identified by a number. -/
structure Templ where
  templ : Nat
  data : TVal

/-- The heap. -/
structure Heap where
  files : Ptr → Option GoFile := fun _ => none
  values : Ptr → Option ValueSpec := fun _ => none
  valueDecls : Ptr → Option ValueDecl := fun _ => none
  types : Ptr → Option TypeSpec := fun _ => none
  typeDecls : Ptr → Option TypeDecl := fun _ => none
  fields : Ptr → Option FieldSpec := fun _ => none
  embeds : Ptr → Option InterfaceEmbed := fun _ => none
  methods : Ptr → Option InterfaceMethod := fun _ => none
  funcs : Ptr → Option FuncSpec := fun _ => none
  blocks : Ptr → Option CodeBlock := fun _ => none
  args : Ptr → Option (List Arg) := fun _ => none
  templs : Ptr → Option Templ := fun _ => none
  /-- every address from here on is unused -/
  next : Ptr := 0

/-- Writing to one address of a table. -/
def upd {α : Type} (m : Ptr → Option α) (p : Ptr) (a : α) : Ptr → Option α :=
  fun q => if q = p then some a else m q

/-- Dereference: a nil pointer panics. -/
def deref {α : Type} (m : Ptr → Option α) (p : Ptr) : Outcome α :=
  match m p with
  | some a => .ok a
  | none => .panic

/-- What is outside of gopoet: the Unicode table of `strconv.IsPrint`, `fmt` for formats that
`Verif.Model.Fmt` does not describe, the execution of templates (`none`: an error) and
`go/format.Source` (`none`: an error). -/
structure Env where
  isPrint : Nat → Bool
  fmtOther : Heap → GoString → List Arg → GoString
  exec : Heap → Nat → TVal → Option GoString
  format : GoString → Option GoString

end Gopoet
