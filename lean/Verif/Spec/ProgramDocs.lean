import Verif.Spec.Program
import Verif.Spec.Docs
/-!
# The comments that a program gives to what it makes

In terms of the calls, as in `Verif.Spec.Program`.
-/

namespace Gopoet

/-- The comment that the calls of a program gave to an object last. -/
def givenComment (cs : List BuildCall) (o : Obj) : GoString := lastOr [] (cs.filterMap (·.comment? o))

/-- The comment for a declaration: its own, or else that of its only spec. -/
def declComment (own : GoString) (specs : List GoString) : GoString :=
  match own, specs with
  | [], [c] => c
  | own, _ => own

/-- The element of a file is a declaration with that keyword, for which the program gave that comment. -/
inductive SaysDoc (cs : List BuildCall) : FileElem → GoString → GoString → Prop
  | types {ts g post} : Made cs (.newTypeDecl ts) g post →
      SaysDoc cs (.types g.next) (b! "type ") (declComment (givenComment cs (.typeDecl g.next))
        ((ts ++ post.filterMap (·.typeSpec? g.next)).map fun t => givenComment cs (.type t)))
  | type {f t g post} : Made cs (.addType f t) g post →
      SaysDoc cs (.types g.next) (b! "type ") (declComment (givenComment cs (.typeDecl g.next))
        ((t :: post.filterMap (·.typeSpec? g.next)).map fun t => givenComment cs (.type t)))
  | values {kind vs g post} : Made cs (.newValueDecl kind vs) g post →
      SaysDoc cs (.values g.next) (if kind = .const then b! "const " else b! "var ")
        (declComment (givenComment cs (.valueDecl g.next))
          ((vs ++ post.filterMap (·.spec? g.next)).map fun v => givenComment cs (.value v)))
  | value {f kind v g post} : Made cs (.addValue f kind v) g post →
      SaysDoc cs (.values g.next) (if kind = .const then b! "const " else b! "var ")
        (declComment (givenComment cs (.valueDecl g.next))
          ((v :: post.filterMap (·.spec? g.next)).map fun v => givenComment cs (.value v)))
  | func {r n g post} : Made cs (.newFunc r n) g post →
      SaysDoc cs (.func g.next) (b! "func ") (givenComment cs (.func g.next))

/-- The program makes a file at that address, for a package with that name, and adds these elements to it. -/
inductive SaysElements (cs : List BuildCall) : Ptr → GoString → List FileElem → Prop
  | file {name own pkg g g' post} : Made cs (.newFile name own pkg) g post → (BuildCall.newFile name own pkg).exec g = .ok g' →
      SaysElements cs g.next pkg ((steps post g').filterMap (added? g.next))

end Gopoet
