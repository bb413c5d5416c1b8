import Verif.Spec.Builders
import Verif.Spec.FileMeaning
import Verif.Spec.FileNames
import Verif.Spec.Imports
import Verif.Spec.Written
import Verif.Spec.Writable
import Verif.Spec.Copyable
import Verif.Spec.TemplateText
/-!
# What a program says that builds a file

A program is a list of calls of gopoet's constructors and chained methods, as in `Verif.Spec.Builders`.
What the file that it builds is to declare is said here in terms of the calls alone: a type is what was
given to its constructor, a function has the arguments that were added to it, and so on.
-/

namespace Gopoet

/-- The program has the call, with `post` after it. It is executed in the heap `g`, so that the object that
it makes is at `g.next`. -/
def Made (cs : List BuildCall) (c : BuildCall) (g : Heap) (post : List BuildCall) : Prop :=
  ∃ pre, cs = pre ++ c :: post ∧ build pre {} = .ok g

/-! ### The packages that calls mention -/

/-- The packages that are mentioned in a type that is given to a call. -/
def TypeRef.given : TypeRef → List Package
  | .name t => t.symbols.map (·.package)
  | _ => []

/-- The packages mentioned in a call that adds code. -/
def CodeCall.given : CodeCall → List Package
  | .printf _ args | .printlnf _ args => args.flatMap Arg.packages
  | .renderCode _ data => (TVal.iface acceptsAll data).packages
  | _ => []

/-- The packages mentioned in a change of a signature. -/
def SigCall.given : SigCall → List Package
  | .addArg _ t | .addResult _ t => t.symbols.map (·.package)
  | .setVariadic _ => []

/-- The packages mentioned in a call. -/
def BuildCall.given : BuildCall → List Package
  | .newTypeSpec _ t | .newTypeAlias _ t | .newField _ t | .setType _ t => t.given
  | .newInterfaceEmbed s => [s.package]
  | .newBlock (some c) | .funcCode _ c | .blockCode _ c => c.given
  | .initWith _ _ args => args.flatMap Arg.packages
  | .methodSig _ c | .funcSig _ c => c.given
  | .newFile _ path name => [⟨path, name⟩]
  | _ => []

/-- The format arguments given to a call that adds code. -/
def CodeCall.args : CodeCall → List Arg
  | .printf _ args | .printlnf _ args => args
  | _ => []

/-- The format arguments given to a call. -/
def BuildCall.args : BuildCall → List Arg
  | .newBlock (some c) | .funcCode _ c | .blockCode _ c => c.args
  | .initWith _ _ args => args
  | _ => []

/-! ### What objects are to declare -/

/-- A type that can be declared. -/
def TypeName.Declarable (sc : FileScope) (t : TypeName) : Prop :=
  t.valid = true ∧ t.wellNamed = true ∧ t.multiline = true ∧ sc.Knows t.symbols t.basics

/-- A field that can be declared: its name is an identifier, or it is embedded; a struct or interface type in it has no tag. -/
def FieldDeclarable (sc : FileScope) (n : GoString) (t : TypeName) (tag : GoString) : Prop :=
  t.Declarable sc ∧ (n = [] ∧ t.embeddable = true ∨ isIdent n = true) ∧ (t.isBlock = true → tag = [])

/-- A signature that can be declared. -/
def Signature.Declarable (sc : FileScope) (s : Signature) : Prop :=
  s.valid = true ∧ s.wellNamed = true ∧ s.unproblematic = true ∧ sc.Knows s.symbols s.basics

/-- The signature that calls give to a new function or interface method. -/
def sigBuilt (o : Obj) (cs : List BuildCall) : Signature :=
  ⟨(cs.filterMap (·.sig? o)).filterMap SigCall.arg?,
   (cs.filterMap (·.sig? o)).filterMap SigCall.result?,
   lastOr false ((cs.filterMap (·.sig? o)).filterMap SigCall.variadic?)⟩

/-- Whether the call gives a const or var an initializer, or takes it away. -/
def BuildCall.inits? (p : Ptr) : BuildCall → Option Bool
  | .setInitializer q b => if q = p then some b.isSome else none
  | .initWith q _ _ => if q = p then some true else none
  | _ => none

/-- The interface embed or method that was made with this type or name; a method got its signature later. -/
inductive SaysElem (sc : FileScope) (cs : List BuildCall) : IfaceElem → GoElem TypeIdent → Prop
  | embed {s g post} : Made cs (.newInterfaceEmbed s) g post → s.wellNamed = true → sc.Knows [s] [] →
      SaysElem sc cs (.embed g.next) (.embed (sc.symbolMeaning s))
  | method {n g post} : Made cs (.newInterfaceMethod n) g post → isIdent n = true →
      (sigBuilt (.method g.next) post).Declarable sc →
      SaysElem sc cs (.method g.next) (.method n ((sigBuilt (.method g.next) post).meaning sc.symbolMeaning))

mutual
/-- The field that was made with this name and type, and got its tag later. The type can be a type spec without name. -/
inductive SaysField (sc : FileScope) (cs : List BuildCall) : Ptr → GoField TypeIdent → Prop
  | field {n t tag g post} : Made cs (.newField n (.name t)) g post → tag = lastOr [] (post.filterMap (·.tag? g.next)) →
      FieldDeclarable sc n t tag →
      SaysField sc cs g.next (.mk (optName n) (t.meaning sc.symbolMeaning) (optName tag))
  | unnamed {n q al t g post} : Made cs (.newField n (.spec q)) g post → lastOr [] (post.filterMap (·.tag? g.next)) = [] →
      isIdent n = true → SaysSpec sc cs q [] al t → SaysField sc cs g.next (.mk (some n) t none)
/-- The fields, in order. -/
inductive SaysFields (sc : FileScope) (cs : List BuildCall) : List Ptr → List (GoField TypeIdent) → Prop
  | nil : SaysFields sc cs [] []
  | cons {p G ps l} : SaysField sc cs p G → SaysFields sc cs ps l → SaysFields sc cs (p :: ps) (G :: l)
/-- The type spec that was made with this name; whether it is an alias, and its type. A spec that is made from one without name
has its type. -/
inductive SaysSpec (sc : FileScope) (cs : List BuildCall) : Ptr → GoString → Bool → GoType TypeIdent → Prop
  | type {n t g post} : Made cs (.newTypeSpec n (.name t)) g post → t.Declarable sc →
      SaysSpec sc cs g.next n false (t.meaning sc.symbolMeaning)
  | aliasOf {n t g post} : Made cs (.newTypeAlias n (.name t)) g post → t.Declarable sc →
      SaysSpec sc cs g.next n true (t.meaning sc.symbolMeaning)
  | struct {n fs l g post} : Made cs (.newStructTypeSpec n fs) g post →
      SaysFields sc cs fs l → SaysSpec sc cs g.next n false (.struct l)
  | iface {n es l g post} : Made cs (.newInterfaceTypeSpec n es) g post →
      List.Forall₂ (SaysElem sc cs) es l → SaysSpec sc cs g.next n false (.iface l)
  | copy {n q al t g post} : Made cs (.newTypeSpec n (.spec q)) g post → SaysSpec sc cs q [] al t →
      SaysSpec sc cs g.next n false t
  | copyAlias {n q al t g post} : Made cs (.newTypeAlias n (.spec q)) g post → SaysSpec sc cs q [] al t →
      SaysSpec sc cs g.next n true t
end

/-- The type that was made with this name, an identifier. -/
def SaysType (sc : FileScope) (cs : List BuildCall) (p : Ptr) (d : GoString × Bool × GoType TypeIdent) : Prop :=
  isIdent d.1 = true ∧ SaysSpec sc cs p d.1 d.2.1 d.2.2

/-- The constants or variables that were made with these names. They got their type and initializer later: a
variable has one of them, and a constant with a type has an initializer. -/
inductive SaysValue (sc : FileScope) (cs : List BuildCall) (kind : ValueKind) :
    Ptr → List GoString × Option (GoType TypeIdent) → Prop
  | value {names t g post} : Made cs (.newValue kind names) g post → names ≠ [] → (∀ n ∈ names, isIdent n = true) →
      TypeRef.Means sc (lastOr TypeRef.nil (post.filterMap (·.type? g.next))) t →
      (if kind = .const then t.isNone ∨ lastOr false (post.filterMap (·.inits? g.next)) = true
        else t.isSome ∨ lastOr false (post.filterMap (·.inits? g.next)) = true) →
      SaysValue sc cs kind g.next (names, t)

/-- What the element of a file was built to declare. A declaration has the specs that it was made with, and
those that were added later. -/
inductive SaysDecl (sc : FileScope) (cs : List BuildCall) : FileElem → DeclMeaning → Prop
  | types {ts l g post} : Made cs (.newTypeDecl ts) g post → ts ++ post.filterMap (·.typeSpec? g.next) ≠ [] →
      List.Forall₂ (SaysType sc cs) (ts ++ post.filterMap (·.typeSpec? g.next)) l →
      SaysDecl sc cs (.types g.next) (.types l)
  | type {f t l g post} : Made cs (.addType f t) g post →
      List.Forall₂ (SaysType sc cs) (t :: post.filterMap (·.typeSpec? g.next)) l →
      SaysDecl sc cs (.types g.next) (.types l)
  | values {kind vs l g post} : Made cs (.newValueDecl kind vs) g post → vs ++ post.filterMap (·.spec? g.next) ≠ [] →
      List.Forall₂ (SaysValue sc cs kind) (vs ++ post.filterMap (·.spec? g.next)) l →
      SaysDecl sc cs (.values g.next) (.values (kind == .const) l)
  | value {f kind v l g post} : Made cs (.addValue f kind v) g post →
      List.Forall₂ (SaysValue sc cs kind) (v :: post.filterMap (·.spec? g.next)) l →
      SaysDecl sc cs (.values g.next) (.values (kind == .const) l)
  | func {r n g post} : Made cs (.newFunc r n) g post → isIdent n = true →
      (sigBuilt (.func g.next) post).Declarable sc →
      (∀ v, r = some v → (v.name = [] ∨ isIdent v.name = true) ∧ isIdent v.type = true ∧ v.type ∈ sc.decls) →
      SaysDecl sc cs (.func g.next) (.func (r.map (ReceiverSpec.meaning sc)) n
        ((sigBuilt (.func g.next) post).meaning sc.symbolMeaning))

/-- The element that a call, executed in that heap, adds to the file: the one given, or a new declaration. -/
def added? (f : Ptr) : BuildCall × Heap → Option FileElem
  | (.addElement q e, _) => if q = f then some e else none
  | (.addValue q _ _, g) => if q = f then some (.values g.next) else none
  | (.addType q _, g) => if q = f then some (.types g.next) else none
  | _ => none

/-- The program makes a file for the package with this path and name, and adds elements to it that are to declare `Ms`. -/
inductive SaysFile (sc : FileScope) (cs : List BuildCall) : Ptr → GoString → List DeclMeaning → Prop
  | file {name pkg g g' post Ms} : Made cs (.newFile name sc.own pkg) g post → (BuildCall.newFile name sc.own pkg).exec g = .ok g' →
      List.Forall₂ (SaysDecl sc cs) ((steps post g').filterMap (added? g.next)) Ms →
      SaysFile sc cs g.next pkg Ms

/-! ### What is declared, by name -/

/-- The type that the receiver of a method belongs to. -/
def receiverName : GoParam TypeIdent → GoString
  | .mk _ (.name (.declared _ t)) | .mk _ (.ptr (.name (.declared _ t))) => t
  | _ => []

/-- The names that are declared, blank ones included. -/
def DeclMeaning.declared : DeclMeaning → List Declared
  | .types ts => ts.map (.name ·.1)
  | .values _ vs => vs.flatMap (·.1.map .name)
  | .func none n _ => if n = b! "init" then [] else [.name n]
  | .func (some r) n _ => [.method (receiverName r) n]

/-- What is declared in the end. -/
def declaredBy (Ms : List DeclMeaning) : List Declared := (Ms.flatMap DeclMeaning.declared).filter (!·.isBlank)

/-! ### The code -/

/-- The calls that wrote the code that is in the code blocks and in the functions. -/
structure CodeGiven where
  blocks : Ptr → List CodeCall
  funcs : Ptr → List CodeCall

/-- What a call adds to code: `AddCode` what is in the other block at the time, all others themselves. -/
def CodeCall.adds (blocks : Ptr → List CodeCall) : CodeCall → List CodeCall
  | .addCode b => blocks b
  | c => [c]

/-- A new code block, with what calls add to it. -/
def CodeGiven.new (σ : CodeGiven) (b : Ptr) (cs : List CodeCall) : CodeGiven :=
  { σ with blocks := fun q => if q = b then cs.flatMap (CodeCall.adds fun q => if q = b then [] else σ.blocks q) else σ.blocks q }

/-- What a call, executed in that heap, does to code. (New objects get the next address.) -/
def CodeGiven.call (σ : CodeGiven) : BuildCall × Heap → CodeGiven
  | (.newFunc _ _, g) => { σ with funcs := fun q => if q = g.next then [] else σ.funcs q }
  | (.newBlock c, g) => σ.new g.next c.toList
  | (.initWith _ format args, g) => σ.new g.next [.printf format args]
  | (.blockCode b c, _) => { σ with blocks := fun q => if q = b then σ.blocks b ++ c.adds σ.blocks else σ.blocks q }
  | (.funcCode f c, _) => { σ with funcs := fun q => if q = f then σ.funcs f ++ c.adds σ.blocks else σ.funcs q }
  | _ => σ

/-- What the calls of a program have written to code blocks and functions, where what is copied by `AddCode` is taken to
be written again. -/
def codeGiven (cs : List BuildCall) : CodeGiven := (steps cs {}).foldl CodeGiven.call ⟨fun _ => [], fun _ => []⟩

/-- The templates that consist of the parts in `Verif.Model.TemplateText`, with what text/template does with values that are
not gopoet's. -/
structure KnownTemplates (env : Env) where
  own : TVal → Shown
  sc : Scalars
  nodes : Nat → Option (List TNode)
  exec : ∀ n t, nodes n = some t → ∀ g d, env.exec g n d = execute env.isPrint own sc g t d

/-- No templates are known. -/
def noTemplates (env : Env) : KnownTemplates env := ⟨fun _ => .other, ⟨fun _ => false, id, fun _ _ => false, fun _ _ => none⟩, fun _ => none, nofun⟩

/-- A call of which it is known what text it adds to a file of the package `own`: it writes lines as in `CodeCall.writable`, or a known
template with valid data in which nothing gets lost (`TVal.Preserved`), that only shows what stands for a reference, a number or a string.
The data has no specs, or the file has an import path. -/
def CodeCall.Clear {env : Env} (T : KnownTemplates env) (h : Heap) (own : GoString) : CodeCall → Prop
  | .renderCode n v => ∃ t, T.nodes n = some t ∧ (TVal.iface acceptsAll v).validTypes = true ∧
      (TVal.iface acceptsAll v).flatIfaces = true ∧ v.copyNames = [] ∧ (v.noSpecs = true ∨ own ≠ []) ∧
      ∀ i : Imports, v.Preserved h i.qualifierOf ∧
        (∀ x ∈ showsNodes T.sc t (.start v), x.2.ShownRight env.isPrint T.own h i x.1) ∧
        templateMeans env.isPrint T.own T.sc h i t v ≠ none
  | c => c.writable env.isPrint h

/-- The text that a call adds to the code of a file with those imports. -/
inductive CallWritten {env : Env} (T : KnownTemplates env) (h : Heap) (i : Imports) : CodeCall → GoString → Prop
  | line {c s} : CallText env.isPrint h i c s → CallWritten T h i c s
  | templ {n v t s} : T.nodes n = some t → templateMeans env.isPrint T.own T.sc h i t v = some s →
      CallWritten T h i (.renderCode n v) s

/-- Calls that write code, and that write it as the spec says for any file of the package in which the packages have
identifiers as names. (The heap is the one that the program leaves. It tells what specs in the arguments refer to.) -/
def CallsRead {env : Env} (T : KnownTemplates env) (h : Heap) (own : GoString) (R : GoString → Prop) (calls : List CodeCall) : Prop :=
  (∀ c ∈ calls, c.Clear T h own) ∧ ∀ i texts, i.pkgPath = own →
    (∀ path ∈ i.importedPaths, isIdent (i.qualifierOf path) = true) →
    List.Forall₂ (CallWritten T h i) calls texts → R texts.flatten

/-- The code of a program: what is added to functions is read as function bodies, and what consts and vars are
initialized with as initializers. -/
structure CodeSays {env : Env} (T : KnownTemplates env) (h : Heap) (own : GoString) (cs : List BuildCall) : Prop where
  funcs : ∀ r n g post, Made cs (.newFunc r n) g post →
    CallsRead T h own (fun s => ∃ body, BodyToks s body) ((codeGiven cs).funcs g.next)
  blocks : ∀ p b, .setInitializer p (some b) ∈ cs → ∃ c g post, Made cs (.newBlock c) g post ∧ g.next = b ∧
    CallsRead T h own (fun s => ∃ e, InitToks s e) ((codeGiven cs).blocks b)
  inits : ∀ p format args g post, Made cs (.initWith p format args) g post →
    CallsRead T h own (fun s => ∃ e, InitToks s e) ((codeGiven cs).blocks g.next)

/-! ### Conditions on the calls -/

/-- Fields and methods of types are complete when they are given to a type: their tags and signatures are not
changed afterwards. (Such changes would not get into the underlying type.) What is changed is a field
or method that the program has made. -/
structure InOrder (cs : List BuildCall) : Prop where
  tags : ∀ pre q tag post, cs = pre ++ .setTag q tag :: post →
    (∃ n t g l, Made pre (.newField n t) g l ∧ g.next = q) ∧ ∀ n fs, .newStructTypeSpec n fs ∈ pre → q ∉ fs
  sigs : ∀ pre q c post, cs = pre ++ .methodSig q c :: post →
    (∃ n g l, Made pre (.newInterfaceMethod n) g l ∧ g.next = q) ∧ ∀ n es, .newInterfaceTypeSpec n es ∈ pre → .method q ∉ es

/-- The argument is no method given as spec or as `types.Object` (the text for these has no package, see C33). -/
def Arg.NoMethod (cs : List BuildCall) : Arg → Prop
  | .func p => ∀ r n g post, Made cs (.newFunc (some r) n) g post → g.next ≠ p
  | .ifaceMethod _ => False
  | .goObject o _ => ∀ m, symbolForGoObject o ≠ .ok (.method m)
  | _ => True

/-- The name that a package is imported under where it is free: its own, or else the last part of its path. -/
def Package.givenName (pk : Package) : GoString := if pk.name = [] then pathBase pk.importPath else pk.name

/-- What is asked of the calls of a program that builds a file of the package `own`: names of packages are true, and are
identifiers that are not among the names to avoid, also not followed by a number. -/
structure Proper (realName : GoString → GoString) (own : GoString) (avoid : List GoString) (cs : List BuildCall) : Prop where
  packages : ∀ c ∈ cs, ∀ pk ∈ c.given, pk = ⟨[], []⟩ ∨ pk.importPath = own ∨
    (pk.name = [] ∨ pk.name = realName pk.importPath) ∧ isIdent pk.givenName = true ∧
      ∀ n, candidate pk.givenName n ∉ avoid
  order : InOrder cs
  args : ∀ c ∈ cs, ∀ a ∈ c.args, a.NoMethod cs

/-! ### Conditions for the file to be written -/

/-- A type that can be given to a call: a spec, or a valid type. -/
def TypeRef.Given : TypeRef → Prop
  | .nil => False
  | .name t => t.valid = true
  | .spec _ => True

/-- The types in a call are valid. Only the type of a const or var can be missing. -/
def BuildCall.TypesGiven : BuildCall → Prop
  | .newTypeSpec _ t | .newTypeAlias _ t | .newField _ t => t.Given
  | .setType _ t => t ≠ .nil → t.Given
  | _ => True

/-- Template data that can always be rebuilt with other package names: types are valid, structs have exported fields only, arrays are
behind pointers or in slices, and there are no pointers to interfaces. It has no package-level specs, and packages in it have paths. -/
structure TVal.Plain (v : TVal) : Prop where
  noSpecs : v.noSpecs = true
  valid : (TVal.iface acceptsAll v).validTypes = true
  settable : v.settable false = true
  flatPtrs : v.flatPtrs = true
  paths : ∀ pk ∈ (TVal.iface acceptsAll v).packages, pk.importPath ≠ []

/-- The data for the template that the call renders as code, if it does. -/
def BuildCall.rendered? : BuildCall → Option TVal
  | .newBlock (some (.renderCode _ v)) | .funcCode _ (.renderCode _ v) | .blockCode _ (.renderCode _ v) => some v
  | _ => none

/-- What is asked of the calls of a program so that its files can be written: the types in them, and the signatures that
they make, are valid, and template data is plain. Packages have paths; but symbols can belong to no package. -/
structure Sensible (cs : List BuildCall) : Prop where
  types : ∀ c ∈ cs, c.TypesGiven
  args : ∀ c ∈ cs, ∀ a ∈ c.args, a.TypesValid
  funcs : ∀ r n g post, Made cs (.newFunc r n) g post → (sigBuilt (.func g.next) post).valid = true
  methods : ∀ n g post, Made cs (.newInterfaceMethod n) g post → (sigBuilt (.method g.next) post).valid = true
  templates : ∀ c ∈ cs, ∀ v, c.rendered? = some v → v.Plain
  files : ∀ n path name, .newFile n path name ∈ cs → path ≠ []
  paths : ∀ c ∈ cs, ∀ pk ∈ c.given, pk.importPath = [] → pk = ⟨[], []⟩
  handed : ∀ c ∈ cs, ∀ a ∈ c.args, ∀ pk ∈ a.handed, pk.importPath ≠ []

end Gopoet
