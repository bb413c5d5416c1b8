import Verif.Model.Builders
import Verif.Spec.Decls
import Verif.Spec.Code
import Verif.Spec.Types
/-!
# What it means to build a file with constructors and chained methods

A build is a list of calls. What an object must look like afterwards is said in terms of the calls
alone: the last comment that was set, the arguments that were added, in order, and so on. Addresses
are explicit: a constructor returns the first unused address.
-/

namespace Gopoet

/-- An object. -/
inductive Obj where
  | value (p : Ptr)
  | valueDecl (p : Ptr)
  | type (p : Ptr)
  | typeDecl (p : Ptr)
  | field (p : Ptr)
  | embed (p : Ptr)
  | method (p : Ptr)
  | func (p : Ptr)
  deriving DecidableEq, Repr

/-- A call of the public interface of gopoet that makes or changes an object. -/
inductive BuildCall where
  | newValue (kind : ValueKind) (names : List GoString)
  | newValueDecl (kind : ValueKind) (specs : List Ptr)
  | newTypeDecl (types : List Ptr)
  | newTypeSpec (name : GoString) (t : TypeRef)
  | newTypeAlias (name : GoString) (t : TypeRef)
  | newStructTypeSpec (name : GoString) (fields : List Ptr)
  | newInterfaceTypeSpec (name : GoString) (elems : List IfaceElem)
  | newField (name : GoString) (t : TypeRef)
  | newInterfaceEmbed (s : Symbol)
  | newInterfaceMethod (name : GoString)
  | newFunc (receiver : Option ReceiverSpec) (name : GoString)
  | newBlock (call : Option CodeCall)
  | newFile (fileName packagePath packageName : GoString)
  | setComment (o : Obj) (comment : GoString)
  | setType (p : Ptr) (t : TypeRef)
  | setInitializer (p : Ptr) (b : Option Ptr)
  | initWith (p : Ptr) (format : GoString) (args : List Arg)
  | setTag (p : Ptr) (tag : GoString)
  | methodSig (p : Ptr) (c : SigCall)
  | funcSig (p : Ptr) (c : SigCall)
  | funcCode (p : Ptr) (c : CodeCall)
  | blockCode (p : Ptr) (c : CodeCall)
  | fileField (p : Ptr) (k : FileField) (s : GoString)
  | addElement (f : Ptr) (e : FileElem)
  | addValue (f : Ptr) (kind : ValueKind) (s : Ptr)
  | addType (f : Ptr) (t : Ptr)
  | declAddValue (d s : Ptr)
  | declAddType (d t : Ptr)

/-- The heap that a constructor leaves. -/
def built (r : Outcome (Ptr × Heap)) : Outcome Heap := r.bind fun r => .ok r.2

/-- `SetComment` of each kind of object. -/
def setCommentOf (h : Heap) (comment : GoString) : Obj → Outcome Heap
  | .value p => valueSetComment h p comment
  | .valueDecl p => valueDeclSetComment h p comment
  | .type p => typeSetComment h p comment
  | .typeDecl p => typeDeclSetComment h p comment
  | .field p => fieldSetComment h p comment
  | .embed p => embedSetComment h p comment
  | .method p => methodSetComment h p comment
  | .func p => funcSetComment h p comment

/-- Executes a call. -/
def BuildCall.exec (h : Heap) : BuildCall → Outcome Heap
  | .newValue kind names => .ok (Gopoet.newValue h kind names).2
  | .newValueDecl kind specs => .ok (Gopoet.newValueDecl h kind specs).2
  | .newTypeDecl types => .ok (Gopoet.newTypeDecl h types).2
  | .newTypeSpec name t => built (Gopoet.newTypeSpec h name t)
  | .newTypeAlias name t => built (Gopoet.newTypeAlias h name t)
  | .newStructTypeSpec name fields => built (Gopoet.newStructTypeSpec h name fields)
  | .newInterfaceTypeSpec name elems => built (Gopoet.newInterfaceTypeSpec h name elems)
  | .newField name t => .ok (Gopoet.newField h name t).2
  | .newInterfaceEmbed s => .ok (Gopoet.newInterfaceEmbed h s).2
  | .newInterfaceMethod name => .ok (Gopoet.newInterfaceMethod h name).2
  | .newFunc receiver name => .ok (Gopoet.newFunc h receiver name).2
  | .newBlock call => built (Gopoet.newBlock h call)
  | .newFile fileName packagePath packageName => built (allocFile h fileName packagePath packageName)
  | .setComment o comment => setCommentOf h comment o
  | .setType p t => valueSetType h p t
  | .setInitializer p b => valueSetInitializer h p b
  | .initWith p format args => valueInitialize h p format args
  | .setTag p tag => fieldSetTag h p tag
  | .methodSig p c => methodSigCall h p c
  | .funcSig p c => funcSigCall h p c
  | .funcCode p c => funcCodeCall h p c
  | .blockCode p c => blockCall h p c
  | .fileField p k s => fileAssign h p k s
  | .addElement f e => Gopoet.addElement h f e
  | .addValue f kind s => Gopoet.addValue h f kind s
  | .addType f t => Gopoet.addType h f t
  | .declAddValue d s => Gopoet.declAddValue h d s
  | .declAddType d t => Gopoet.declAddType h d t

/-- Executes calls in order. -/
def build : List BuildCall → Heap → Outcome Heap
  | [], h => .ok h
  | c :: cs, h => (c.exec h).bind (build cs)

/-- The calls with the heaps in which they are executed. -/
def steps : List BuildCall → Heap → List (BuildCall × Heap)
  | [], _ => []
  | c :: cs, h => (c, h) :: match c.exec h with
    | .ok h' => steps cs h'
    | _ => []

/-- Nothing is at the addresses from `next` on. -/
structure Heap.Fresh (h : Heap) : Prop where
  files : ∀ p, h.next ≤ p → h.files p = none
  values : ∀ p, h.next ≤ p → h.values p = none
  valueDecls : ∀ p, h.next ≤ p → h.valueDecls p = none
  types : ∀ p, h.next ≤ p → h.types p = none
  typeDecls : ∀ p, h.next ≤ p → h.typeDecls p = none
  fields : ∀ p, h.next ≤ p → h.fields p = none
  embeds : ∀ p, h.next ≤ p → h.embeds p = none
  methods : ∀ p, h.next ≤ p → h.methods p = none
  funcs : ∀ p, h.next ≤ p → h.funcs p = none
  blocks : ∀ p, h.next ≤ p → h.blocks p = none
  args : ∀ p, h.next ≤ p → h.args p = none
  templs : ∀ p, h.next ≤ p → h.templs p = none

/-! ### What the calls say about an object -/

/-- The last of the values, or the one that was there before. -/
def lastOr {α : Type} (a : α) : List α → α
  | [] => a
  | b :: l => lastOr b l

/-- The comment that the call sets. -/
def BuildCall.comment? (o : Obj) : BuildCall → Option GoString
  | .setComment o' c => if o' = o then some c else none
  | _ => none

/-- The change that the call makes to the signature of a function or an interface method. -/
def BuildCall.sig? (o : Obj) : BuildCall → Option SigCall
  | .funcSig p c => if Obj.func p = o then some c else none
  | .methodSig p c => if Obj.method p = o then some c else none
  | _ => none

/-- The argument that is added. -/
def SigCall.arg? : SigCall → Option ArgType
  | .addArg n t => some ⟨n, t⟩
  | _ => none

/-- The result that is added. -/
def SigCall.result? : SigCall → Option ArgType
  | .addResult n t => some ⟨n, t⟩
  | _ => none

/-- Whether the signature is said to be variadic. -/
def SigCall.variadic? : SigCall → Option Bool
  | .setVariadic b => some b
  | _ => none

/-- The type that the call gives to a const or var. -/
def BuildCall.type? (p : Ptr) : BuildCall → Option TypeRef
  | .setType q t => if q = p then some t else none
  | _ => none

/-- The tag that the call gives to a field. -/
def BuildCall.tag? (p : Ptr) : BuildCall → Option GoString
  | .setTag q t => if q = p then some t else none
  | _ => none

/-- The spec that the call adds to a const or var declaration. -/
def BuildCall.spec? (d : Ptr) : BuildCall → Option Ptr
  | .declAddValue d' s => if d' = d then some s else none
  | _ => none

/-- The type that the call adds to a type declaration. -/
def BuildCall.typeSpec? (d : Ptr) : BuildCall → Option Ptr
  | .declAddType d' s => if d' = d then some s else none
  | _ => none

/-- The text that the call assigns to a field of a file. -/
def BuildCall.fileField? (f : Ptr) (k : FileField) : BuildCall → Option GoString
  | .fileField f' k' s => if f' = f ∧ k' = k then some s else none
  | _ => none

/-- The call adds an element to a file. -/
def BuildCall.addsTo (f : Ptr) : BuildCall → Bool
  | .addElement f' _ => f' = f
  | .addValue f' _ _ => f' = f
  | .addType f' _ => f' = f
  | _ => false

/-- What the call, executed in that heap, adds to a file: the element given, or a new declaration
with just the spec given. -/
inductive Adds : BuildCall × Heap → FileElem → Prop
  | element {f e h} : Adds (.addElement f e, h) e
  | value {f k s h h' d} : h.valueDecls d = none → addValue h f k s = .ok h' →
      h'.valueDecls d = some { kind := k, specs := [s] } → Adds (.addValue f k s, h) (.values d)
  | type {f t h h' d} : h.typeDecls d = none → addType h f t = .ok h' →
      h'.typeDecls d = some { types := [t] } → Adds (.addType f t, h) (.types d)

/-- The initializer that the call, executed in that heap, gives to a const or var: the block given,
or a new one. -/
def init? (p : Ptr) : BuildCall × Heap → Option (Option Ptr)
  | (.setInitializer q b, _) => if q = p then some b else none
  | (.initWith q _ _, h) => if q = p then some (some h.next) else none
  | _ => none

/-- What the call adds to the code of a function, with the heap in which it is executed. -/
def code? (p : Ptr) : BuildCall × Heap → Option (CodeCall × Heap)
  | (.funcCode q c, h) => if q = p then some (c, h) else none
  | _ => none

/-- What the call adds to a code block, with the heap in which it is executed. -/
def blockCode? (p : Ptr) : BuildCall × Heap → Option (CodeCall × Heap)
  | (.blockCode q c, h) => if q = p then some (c, h) else none
  | _ => none

/-- The text that the call stands for when rendered in the heap `H`, if it was executed in the heap
`h`: `Print` and `Println` give their text as it is, `Printf` what `fmt` makes of it, and `AddCode` that
of what was in the block when it was added. A template that fails panics. -/
def CodeCall.means (env : Env) (H : Heap) : CodeCall × Heap → Outcome GoString
  | (.print text, _) => .ok text
  | (.println text, _) => .ok (text ++ b! "\n")
  | (.printf format args, _) => .ok (fprintf env H format args)
  | (.printlnf format args, _) => .ok (fprintf env H (format ++ b! "\n") args)
  | (.renderCode t data, _) =>
    match env.exec H t data with
    | some s => .ok s
    | none => .panic
  | (.addCode b, h) =>
    match h.blocks b with
    | some code => codeText env H code
    | none => .panic

/-- A field of a file. -/
def GoFile.get (f : GoFile) : FileField → GoString
  | .fileComment => f.fileComment
  | .packageComment => f.packageComment
  | .canonicalImportPath => f.canonicalImportPath

/-! ### The text of a function -/

/-- The signature that the calls give to a new function. -/
def builtSig (p : Ptr) (cs : List BuildCall) : Signature :=
  ⟨(cs.filterMap (·.sig? (.func p))).filterMap SigCall.arg?,
   (cs.filterMap (·.sig? (.func p))).filterMap SigCall.result?,
   lastOr false ((cs.filterMap (·.sig? (.func p))).filterMap SigCall.variadic?)⟩

/-- The comment that the calls give to a new function. -/
def builtComment (p : Ptr) (cs : List BuildCall) : GoString := lastOr [] (cs.filterMap (·.comment? (.func p)))

/-- A receiver in front of the name of a method. -/
def receiverText : Option ReceiverSpec → GoString
  | none => []
  | some r => b! "(" ++ (if r.name = [] then [] else r.name ++ b! " ")
      ++ (if r.isPointer then b! "*" else []) ++ r.type ++ b! ") "

/-- The text of a function with that comment, receiver, name, signature and code. -/
def FuncText (tbl : Nat → Bool) (comment : GoString) (r : Option ReceiverSpec) (name : GoString)
    (sig : Signature) (code text : GoString) : Prop :=
  ∃ doc sigText, CommentBlock comment doc ∧ (TypeName.func sig).string tbl = .ok (b! "func" ++ sigText) ∧
    text = doc ++ b! "func " ++ receiverText r ++ name ++ sigText ++ b! " {\n" ++ code ++ b! "}\n"

/-- The call that adds to the code of a function. -/
def BuildCall.code? (p : Ptr) : BuildCall → Option CodeCall
  | .funcCode q c => if q = p then some c else none
  | _ => none

/-- What `fmt` must see of an argument in a file with those imports: text and numbers as they are,
references with the qualifier of the file. (Methods that are given by their spec or go/types object
are excluded: see C33.) -/
inductive ArgWritten (tbl : Nat → Bool) (h : Heap) (i : Imports) : Arg → Shown → Prop
  | str (s) : ArgWritten tbl h i (.str s) (.str s)
  | int (n) : ArgWritten tbl h i (.int n) (.int n)
  | ref {a r s} : Denotes h a r → r.valid → (∀ m, r = .method m → a = .mref m ∨ a = .mrefPtr m) →
      r.text tbl i = .ok s → ArgWritten tbl h i a (.str s)

/-- The text that a call adds to the code of a file with those imports. -/
inductive CallText (tbl : Nat → Bool) (h : Heap) (i : Imports) : CodeCall → GoString → Prop
  | print (s) : CallText tbl h i (.print s) s
  | println (s) : CallText tbl h i (.println s) (s ++ b! "\n")
  | printf {format args shown s} : List.Forall₂ (ArgWritten tbl h i) args shown →
      sprintf tbl format shown = some s → CallText tbl h i (.printf format args) s
  | printlnf {format args shown s} : List.Forall₂ (ArgWritten tbl h i) args shown →
      sprintf tbl (format ++ b! "\n") shown = some s → CallText tbl h i (.printlnf format args) s

/-- An argument to which `ArgWritten` applies. -/
def Arg.writable (h : Heap) (a : Arg) : Prop :=
  (∃ s, a = .str s) ∨ (∃ n, a = .int n) ∨
    ∃ r, Denotes h a r ∧ r.valid ∧ ∀ m, r = .method m → a = .mref m ∨ a = .mrefPtr m

/-- A call to which `CallText` applies: its arguments are text, numbers and references, and the
format has only verbs that are modelled, for as many arguments. -/
def CodeCall.writable (tbl : Nat → Bool) (h : Heap) : CodeCall → Prop
  | .print _ | .println _ => True
  | .printf format args => (∀ a ∈ args, a.writable h) ∧
      ∀ i shown, List.Forall₂ (ArgWritten tbl h i) args shown → sprintf tbl format shown ≠ none
  | .printlnf format args => (∀ a ∈ args, a.writable h) ∧
      ∀ i shown, List.Forall₂ (ArgWritten tbl h i) args shown → sprintf tbl (format ++ b! "\n") shown ≠ none
  | _ => False

end Gopoet
