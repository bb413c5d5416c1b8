import Verif.Spec.ProgramDocs
/-!
# The comments that a program gives to the members of what it declares

The specs of a group, the fields of a struct and the elements of an interface, in terms of the calls.
-/

namespace Gopoet

/-- The program makes a type declaration, with these specs in the end. -/
inductive DeclaresTypes (cs : List BuildCall) : Ptr → List Ptr → Prop
  | decl {ts g post} : Made cs (.newTypeDecl ts) g post → DeclaresTypes cs g.next (ts ++ post.filterMap (·.typeSpec? g.next))
  | added {f t g post} : Made cs (.addType f t) g post → DeclaresTypes cs g.next (t :: post.filterMap (·.typeSpec? g.next))

/-- The program makes a declaration of constants or variables, with these specs in the end. -/
inductive DeclaresValues (cs : List BuildCall) : Ptr → ValueKind → List Ptr → Prop
  | decl {kind vs g post} : Made cs (.newValueDecl kind vs) g post →
      DeclaresValues cs g.next kind (vs ++ post.filterMap (·.spec? g.next))
  | added {f kind v g post} : Made cs (.addValue f kind v) g post →
      DeclaresValues cs g.next kind (v :: post.filterMap (·.spec? g.next))

/-- The object that an element of an interface is. -/
def IfaceElem.obj : IfaceElem → Obj
  | .embed p => .embed p
  | .method p => .method p

/-- The element of a file has members. It begins, after the comment that the program gave for it, with that line; then
there are members, for which the program gave these comments; and it ends with that line. -/
inductive SaysMembers (cs : List BuildCall) : FileElem → GoString → GoString → List GoString → GoString → Prop
  | types {p l} : DeclaresTypes cs p l → l.length > 1 ∨ givenComment cs (.typeDecl p) ≠ [] →
      SaysMembers cs (.types p) (givenComment cs (.typeDecl p)) (b! "type (") (l.map fun t => givenComment cs (.type t)) (b! ")")
  | values {p kind l} : DeclaresValues cs p kind l → l.length > 1 ∨ givenComment cs (.valueDecl p) ≠ [] →
      SaysMembers cs (.values p) (givenComment cs (.valueDecl p)) (if kind = .const then b! "const (" else b! "var (")
        (l.map fun v => givenComment cs (.value v)) (b! ")")
  | struct {p n fs g post} : DeclaresTypes cs p [g.next] → givenComment cs (.typeDecl p) = [] →
      Made cs (.newStructTypeSpec n fs) g post → isIdent n = true →
      SaysMembers cs (.types p) (givenComment cs (.type g.next)) (b! "type " ++ n ++ b! "  struct {")
        (fs.map fun q => givenComment cs (.field q)) (b! "}")
  | iface {p n es g post} : DeclaresTypes cs p [g.next] → givenComment cs (.typeDecl p) = [] →
      Made cs (.newInterfaceTypeSpec n es) g post → isIdent n = true →
      SaysMembers cs (.types p) (givenComment cs (.type g.next)) (b! "type " ++ n ++ b! "  interface {")
        (es.map fun e => givenComment cs e.obj) (b! "}")

end Gopoet
