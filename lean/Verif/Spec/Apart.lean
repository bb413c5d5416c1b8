import Verif.Spec.Program
import Verif.Spec.Independent
/-!
# Programs that build several files, with nothing in common

Each object belongs to one of the files. What a call makes belongs to the same file as the objects that
are given to the call. (Code can refer to named types, functions and so on of other files.)
-/

namespace Gopoet

/-- The spec that is a type. -/
def TypeRef.uses : TypeRef → List Ptr
  | .spec p => [p]
  | _ => []

/-- The address of an interface element. -/
def IfaceElem.ptr : IfaceElem → Ptr
  | .embed p | .method p => p

/-- The address of the element of a file. -/
def FileElem.ptr : FileElem → Ptr
  | .values p | .types p | .func p => p

/-- The embedded interfaces among the arguments: what is shown of them is not their name but their type. -/
def Arg.uses : Arg → List Ptr
  | .ifaceEmbed p => [p]
  | _ => []

/-- The types specs among the arguments. -/
def Arg.types : Arg → List Ptr
  | .typeSpec p => [p]
  | _ => []

/-- The objects that get together with others by a call that adds code. -/
def CodeCall.uses : CodeCall → List Ptr
  | .printf _ args | .printlnf _ args => args.flatMap Arg.uses
  | .addCode b => [b]
  | _ => []

/-- The type specs that such a call refers to. -/
def CodeCall.types : CodeCall → List Ptr
  | .printf _ args | .printlnf _ args => args.flatMap Arg.types
  | .renderCode _ data => data.shownSpecs.filterMap fun | (.type p, _) => some p | _ => none
  | _ => []

/-- The objects that get together by a call. -/
def BuildCall.uses : BuildCall → List Ptr
  | .newValueDecl _ l | .newTypeDecl l | .newStructTypeSpec _ l => l
  | .newTypeSpec _ t | .newTypeAlias _ t | .newField _ t => t.uses
  | .newInterfaceTypeSpec _ es => es.map IfaceElem.ptr
  | .newBlock (some c) => c.uses
  | .setType p t => p :: t.uses
  | .setInitializer p b => p :: b.toList
  | .initWith p _ args => p :: args.flatMap Arg.uses
  | .funcCode p c | .blockCode p c => p :: c.uses
  | .addElement f e => [f, e.ptr]
  | .addValue f _ s | .addType f s => [f, s]
  | .declAddValue d s | .declAddType d s => [d, s]
  | _ => []

/-- The type specs that code in a call refers to. -/
def BuildCall.types : BuildCall → List Ptr
  | .newBlock (some c) | .funcCode _ c | .blockCode _ c => c.types
  | .initWith _ _ args => args.flatMap Arg.types
  | _ => []

/-- The name of the type that a call makes. -/
def BuildCall.typeName? : BuildCall → Option GoString
  | .newTypeSpec n _ | .newTypeAlias n _ | .newStructTypeSpec n _ | .newInterfaceTypeSpec n _ => some n
  | _ => none

/-- The program makes a type without name at this address. -/
def Unnamed (cs : List BuildCall) (p : Ptr) : Prop := ∃ c g post, Made cs c g post ∧ g.next = p ∧ c.typeName? = some []

/-- With this assignment of objects to files, no call brings objects of different files together. -/
def FilesApart (owner : Ptr → Ptr) (cs : List BuildCall) : Prop :=
  ∀ c g post, Made cs c g post → ∃ file, (∀ p ∈ c.uses, owner p = file) ∧ (∀ p ∈ c.types, Unnamed cs p → owner p = file) ∧
    ∀ g', c.exec g = .ok g' → ∀ p, g.next ≤ p → p < g'.next → owner p = file

end Gopoet
