import Verif.Model.Output
import Verif.Model.Builders
import Verif.Model.Names
/-!
# The tests of the repository, run on the model

gopoet_test.go builds two files and compares what `WriteGoFiles` gives with the files in test-outputs. Here the same
calls are made on the model and the text that would be given to the formatter is compared with the same files.
The formatter, which is not modelled, changes white space only: texts are compared line by line without blanks,
and without empty lines.
-/

namespace Gopoet.Check

/-! ### Calls in sequence -/

/-- A program that builds something. -/
def Build (α : Type) := Heap → Outcome (α × Heap)

instance : Monad Build where
  pure a := fun h => .ok (a, h)
  bind x f := fun h => (x h).bind fun r => f r.1 r.2

/-- A constructor. -/
def make {α} (f : Heap → α × Heap) : Build α := fun h => .ok (f h)
/-- A constructor that can panic. -/
def tryMake {α} (f : Heap → Outcome (α × Heap)) : Build α := f
/-- A call of a method. -/
def call (f : Heap → Outcome Heap) : Build Unit := fun h => (f h).bind fun h => .ok ((), h)
/-- A call that changes nothing. -/
def ask {α} (f : Heap → Outcome α) : Build α := fun h => (f h).bind fun a => .ok (a, h)
/-- A call that needs no memory. -/
def value {α} (x : Outcome α) : Build α := fun h => x.bind fun a => .ok (a, h)

/-- A text line by line, without blanks and empty lines. -/
def squeeze (lines : List GoString) : List GoString :=
  (lines.map fun l => l.filter fun c => c != 32 && c != 9).filter (· != [])

/-- Printable characters, for `%q`; no other formats are used, and no templates. -/
def env : Env where
  isPrint := fun r => decide (r ≠ 0xFFFD)
  fmtOther := fun _ _ _ => b! "?"
  exec := fun _ _ _ => none
  format := some

/-- The file made by a program, as the formatter gets it, squeezed. -/
def output (prog : Build Ptr) : Outcome (List GoString) :=
  (prog {}).bind fun r => (renderFile env 10 r.1 r.2).1.bind fun s => .ok (squeeze (splitOn newline s))

/-! ### TestSimpleEndToEnd — gopoet_test.go:19-81 -/

/-- The signature of `DoIt`. -/
def doIt : Signature :=
  ⟨[⟨[], namedType (newSymbol (b! "net/http") (b! "RoundTripper"))⟩, ⟨[], .basic .bool⟩], [⟨[], errorType⟩], false⟩

/-- The chain of calls of `Printlnf` that makes the initializer of `vmap`. -/
def vmapBlock (fooState foo bar : Ptr) : Build Ptr := do
  let b ← tryMake (newBlock · (some (.printlnf (b! "map[string]%s{") [.typeSpec fooState])))
  call (blockCall · b (.printlnf (b! "    %q: %s,") [.str (b! "foo"), .value foo]))
  call (blockCall · b (.printlnf (b! "    %q: %s,") [.str (b! "bar"), .value bar]))
  call (blockCall · b (.println (b! "}")))
  pure b

/-- The arguments, results and code of `MakeIt`. -/
def makeIt (f fooState foo vfoo : Ptr) : Build Unit := do
  let t ← ask fun h => (deref h.types fooState).bind (·.toTypeName h)
  call (funcSigCall · f (.addArg (b! "foo") t))
  let strings ← value (sliceType (.basic .string))
  call (funcSigCall · f (.addArg (b! "bar") strings))
  let ch ← value (channelType (structType []) bothDir)
  let bools ← value (sliceType (.basic .bool))
  let fn ← value (funcTypeVariadic [⟨[], ch⟩, ⟨[], bools⟩] [])
  call (funcSigCall · f (.addArg (b! "baz") fn))
  call (funcSigCall · f (.addResult [] errorType))
  call (funcCodeCall · f (.printlnf (b! "if foo == %s {") [.value foo]))
  call (funcCodeCall · f (.printlnf (b! "    return %s(%s(bar, %s))")
    [.symbol (newSymbol (b! "errors") (b! "New")), .symbol (newSymbol (b! "strings") (b! "Join")), .value vfoo]))
  call (funcCodeCall · f (.printlnf (b! "}") []))
  call (funcCodeCall · f (.printlnf (b! "bools := make([]bool, len(bar))") []))
  call (funcCodeCall · f (.printlnf (b! "for i := range bar {") []))
  call (funcCodeCall · f (.printlnf (b! "    _, bools[i] = vmap[bar[i]]") []))
  call (funcCodeCall · f (.printlnf (b! "}") []))
  call (funcCodeCall · f (.printlnf (b! "ch := make(chan struct{}, 1024)") []))
  call (funcCodeCall · f (.printlnf (b! "baz(ch, bools...)") []))
  call (funcCodeCall · f (.printlnf (b! "return nil") []))

/-- The calls of TestSimpleEndToEnd. -/
def simple : Build Ptr := do
  let fooState ← tryMake (newTypeSpec · (b! "FooState") (.name (.basic .int64)))
  let foo ← make (newValue · .const [b! "FOO"])
  call (valueInitialize · foo (b! "%s(%d)") [.typeSpec fooState, .int 101])
  let bar ← make (newValue · .const [b! "BAR"])
  call (valueInitialize · bar (b! "%s(%d)") [.typeSpec fooState, .int 202])
  let vfoo ← make (newValue · .var [b! "vfoo"])
  call (valueSetType · vfoo (.name (.basic .string)))
  let vmap ← make (newValue · .var [b! "vmap"])
  let b ← vmapBlock fooState foo bar
  call (valueSetInitializer · vmap (some b))
  let strings ← value (sliceType (.basic .string))
  let fooDetails ← tryMake (newTypeSpec · (b! "FooDetails") (.name (structType [
    ⟨b! "ID", .basic .int64, b! "json:\"id\""⟩, ⟨b! "Name", .basic .string, b! "json:\"name\""⟩,
    ⟨b! "Categories", strings, b! "json:\"categories\""⟩])))
  let fooInterface ← tryMake (newTypeSpec · (b! "IFoo") (.name (interfaceType
    [newSymbol (b! "fmt") (b! "Stringer")] [⟨b! "DoIt", doIt⟩])))
  let file ← tryMake (allocFile · (b! "basic.go") (b! "foo.bar/baz") (b! "baz"))
  call (addType · file fooState)
  call (addType · file fooDetails)
  call (addType · file fooInterface)
  let d ← make (newValueDecl · .const [foo, bar])
  call (addElement · file (.values d))
  let d ← make (newValueDecl · .var [vfoo, vmap])
  call (addElement · file (.values d))
  let f ← make (newFunc · none (b! "MakeIt"))
  makeIt f fooState foo vfoo
  call (addElement · file (.func f))
  let r ← ask (newReceiverForType · (b! "s") (.spec fooState))
  let f ← make (newFunc · (some r) (b! "String"))
  call (funcSigCall · f (.addResult [] (.basic .string)))
  call (funcCodeCall · f (.printlnf (b! "return %q") [.str (b! "foo")]))
  call (addElement · file (.func f))
  let r ← ask (newPointerReceiverForType · (b! "d") (.spec fooDetails))
  let f ← make (newFunc · (some r) (b! "String"))
  call (funcSigCall · f (.addResult [] (.basic .string)))
  call (funcCodeCall · f (.printlnf (b! "return d.Name") []))
  call (addElement · file (.func f))
  pure file

/-- The lines of test-outputs/foo.bar/baz/basic.go. -/
def goldenSimple : List GoString := [
  b! "package baz",
  b! "",
  b! "import \"errors\"",
  b! "import \"fmt\"",
  b! "import \"net/http\"",
  b! "import \"strings\"",
  b! "",
  b! "type FooState int64",
  b! "",
  b! "type FooDetails struct {",
  b! "\tID         int64    `json:\"id\"`",
  b! "\tName       string   `json:\"name\"`",
  b! "\tCategories []string `json:\"categories\"`",
  b! "}",
  b! "",
  b! "type IFoo interface {",
  b! "\tfmt.Stringer",
  b! "\tDoIt(http.RoundTripper, bool) error",
  b! "}",
  b! "",
  b! "const (",
  b! "\tFOO = FooState(101)",
  b! "\tBAR = FooState(202)",
  b! ")",
  b! "",
  b! "var (",
  b! "\tvfoo string",
  b! "\tvmap = map[string]FooState{",
  b! "\t\t\"foo\": FOO,",
  b! "\t\t\"bar\": BAR,",
  b! "\t}",
  b! ")",
  b! "",
  b! "func MakeIt(foo FooState, bar []string, baz func(chan struct{}, ...bool)) error {",
  b! "\tif foo == FOO {",
  b! "\t\treturn errors.New(strings.Join(bar, vfoo))",
  b! "\t}",
  b! "\tbools := make([]bool, len(bar))",
  b! "\tfor i := range bar {",
  b! "\t\t_, bools[i] = vmap[bar[i]]",
  b! "\t}",
  b! "\tch := make(chan struct{}, 1024)",
  b! "\tbaz(ch, bools...)",
  b! "\treturn nil",
  b! "}",
  b! "",
  b! "func (s FooState) String() string {",
  b! "\treturn \"foo\"",
  b! "}",
  b! "",
  b! "func (d *FooDetails) String() string {",
  b! "\treturn d.Name",
  b! "}",
  b! ""]

/-- The model gives what the test expects. -/
theorem test_simple : output simple = .ok (squeeze goldenSimple) := by decide +kernel

/-! ### TestMoreComplexEndToEnd — gopoet_test.go:83-186 -/

/-- The calls of TestMoreComplexEndToEnd. -/
def complex : Build Ptr := do
  let fooState ← tryMake (newTypeSpec · (b! "FooState") (.name (.basic .int64)))
  call (typeSetComment · fooState (b! "FooState is the state of a foo"))
  let foo ← make (newValue · .const [b! "FOO"])
  call (valueSetComment · foo (b! "The state that is fooey."))
  call (valueInitialize · foo (b! "%s(%d)") [.typeSpec fooState, .int 101])
  let bar ← make (newValue · .const [b! "BAR"])
  call (valueSetComment · bar (b! "The state that is barry."))
  call (valueInitialize · bar (b! "%s(%d)") [.typeSpec fooState, .int 202])
  let vfoo ← make (newValue · .var [b! "vfoo"])
  call (valueSetType · vfoo (.name (.basic .string)))
  call (valueSetComment · vfoo (b! "Global variable that holds a foo string."))
  let vmap ← make (newValue · .var [b! "vmap"])
  call (valueSetComment · vmap (b! "Variable that is a mapping of strings to foo states."))
  let b ← vmapBlock fooState foo bar
  call (valueSetInitializer · vmap (some b))
  let id ← make (newField · (b! "ID") (.name (.basic .int64)))
  call (fieldSetTag · id (b! "json:\"id\""))
  call (fieldSetComment · id (b! "ID is a unique identifier for this foo"))
  let name ← make (newField · (b! "Name") (.name (.basic .string)))
  call (fieldSetTag · name (b! "json:\"name\""))
  call (fieldSetComment · name (b! "Name is the display name for this foo"))
  let strings ← value (sliceType (.basic .string))
  let categories ← make (newField · (b! "Categories") (.name strings))
  call (fieldSetTag · categories (b! "json:\"categories\""))
  call (fieldSetComment · categories (b! "Categories is a slice of category names"))
  let fooDetails ← tryMake (newStructTypeSpec · (b! "FooDetails") [id, name, categories])
  call (typeSetComment · fooDetails (b! "FooDetails provide the gory details for your foo."))
  let e ← make (newInterfaceEmbed · (newSymbol (b! "fmt") (b! "Stringer")))
  call (embedSetComment · e (b! "All IFoos can print to string."))
  let m ← make (newInterfaceMethod · (b! "DoIt"))
  call (methodSigCall · m (.addArg [] (namedType (newSymbol (b! "net/http") (b! "RoundTripper")))))
  call (methodSigCall · m (.addArg [] (.basic .bool)))
  call (methodSigCall · m (.addResult [] errorType))
  call (methodSetComment · m (b! "DoIt massages the foo into producing one or more frobnitz."))
  let fooInterface ← tryMake (newInterfaceTypeSpec · (b! "IFoo") [.embed e, .method m])
  call (typeSetComment · fooInterface (b! "IFoo is for producing frobnitzes."))
  let file ← tryMake (allocFile · (b! "basic.go") (b! "foo.bar.2/baz") (b! "baz"))
  call (addType · file fooState)
  call (addType · file fooDetails)
  call (addType · file fooInterface)
  let d ← make (newValueDecl · .const [foo, bar])
  call (valueDeclSetComment · d (b! "some constants"))
  call (addElement · file (.values d))
  let d ← make (newValueDecl · .var [vfoo, vmap])
  call (valueDeclSetComment · d (b! "some variables"))
  call (addElement · file (.values d))
  let f ← make (newFunc · none (b! "MakeIt"))
  call (funcSetComment · f (b! "MakeIt does a bunch of silly things, possibly returning an error."))
  makeIt f fooState foo vfoo
  call (addElement · file (.func f))
  let r ← ask (newReceiverForType · (b! "s") (.spec fooState))
  let f ← make (newFunc · (some r) (b! "String"))
  call (funcSetComment · f (b! "String implements the fmt.Stringer interface"))
  call (funcSigCall · f (.addResult [] (.basic .string)))
  call (funcCodeCall · f (.printlnf (b! "return %q") [.str (b! "foo")]))
  call (addElement · file (.func f))
  let r ← ask (newPointerReceiverForType · (b! "d") (.spec fooDetails))
  let f ← make (newFunc · (some r) (b! "String"))
  call (funcSetComment · f (b! "String implements the fmt.Stringer interface"))
  call (funcSigCall · f (.addResult [] (.basic .string)))
  call (funcCodeCall · f (.printlnf (b! "return d.Name") []))
  call (addElement · file (.func f))
  pure file

/-- The lines of test-outputs/foo.bar.2/baz/basic.go. -/
def goldenComplex : List GoString := [
  b! "package baz",
  b! "",
  b! "import \"errors\"",
  b! "import \"fmt\"",
  b! "import \"net/http\"",
  b! "import \"strings\"",
  b! "",
  b! "// FooState is the state of a foo",
  b! "type FooState int64",
  b! "",
  b! "// FooDetails provide the gory details for your foo.",
  b! "type FooDetails struct {",
  b! "\t// ID is a unique identifier for this foo",
  b! "\tID int64 `json:\"id\"`",
  b! "\t// Name is the display name for this foo",
  b! "\tName string `json:\"name\"`",
  b! "\t// Categories is a slice of category names",
  b! "\tCategories []string `json:\"categories\"`",
  b! "}",
  b! "",
  b! "// IFoo is for producing frobnitzes.",
  b! "type IFoo interface {",
  b! "\t// All IFoos can print to string.",
  b! "\tfmt.Stringer",
  b! "\t// DoIt massages the foo into producing one or more frobnitz.",
  b! "\tDoIt(http.RoundTripper, bool) error",
  b! "}",
  b! "",
  b! "// some constants",
  b! "const (",
  b! "\t// The state that is fooey.",
  b! "\tFOO = FooState(101)",
  b! "\t// The state that is barry.",
  b! "\tBAR = FooState(202)",
  b! ")",
  b! "",
  b! "// some variables",
  b! "var (",
  b! "\t// Global variable that holds a foo string.",
  b! "\tvfoo string",
  b! "\t// Variable that is a mapping of strings to foo states.",
  b! "\tvmap = map[string]FooState{",
  b! "\t\t\"foo\": FOO,",
  b! "\t\t\"bar\": BAR,",
  b! "\t}",
  b! ")",
  b! "",
  b! "// MakeIt does a bunch of silly things, possibly returning an error.",
  b! "func MakeIt(foo FooState, bar []string, baz func(chan struct{}, ...bool)) error {",
  b! "\tif foo == FOO {",
  b! "\t\treturn errors.New(strings.Join(bar, vfoo))",
  b! "\t}",
  b! "\tbools := make([]bool, len(bar))",
  b! "\tfor i := range bar {",
  b! "\t\t_, bools[i] = vmap[bar[i]]",
  b! "\t}",
  b! "\tch := make(chan struct{}, 1024)",
  b! "\tbaz(ch, bools...)",
  b! "\treturn nil",
  b! "}",
  b! "",
  b! "// String implements the fmt.Stringer interface",
  b! "func (s FooState) String() string {",
  b! "\treturn \"foo\"",
  b! "}",
  b! "",
  b! "// String implements the fmt.Stringer interface",
  b! "func (d *FooDetails) String() string {",
  b! "\treturn d.Name",
  b! "}",
  b! ""]

/-- The model gives what the test expects. -/
theorem test_complex : output complex = .ok (squeeze goldenComplex) := by decide +kernel

end Gopoet.Check
