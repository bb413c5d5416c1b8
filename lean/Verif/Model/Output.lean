import Verif.Model.File
/-!
# Model of the functions that write files — model.go:196-273

The writers, the open function and the file system are outside of gopoet: they answer each call, and
the answer may depend on all calls made so far (`World`). What the code does is the list of calls
it makes (`Event`s, with the answers).
-/

namespace Gopoet

/-! ### `path/filepath` (Unix) -/

/-- One element of the path in `filepath.Clean`; the stack of kept elements has the last one first. -/
def cleanStep (rooted : Bool) (stack : List GoString) (e : GoString) : List GoString :=
  if e = [] ∨ e = b! "." then stack
  else if e = b! ".." then
    match stack with
    | [] => if rooted then [] else [e]
    | top :: below => if top = b! ".." then e :: stack else below
  else e :: stack

/-- `filepath.Clean`, by the rules of its documentation: empty elements and `.` are dropped, an
inner `..` is dropped together with the element before it, `..` at the root is dropped; the empty path
becomes `.`. -/
def filepathClean (p : GoString) : GoString :=
  let rooted := decide (p.head? = some slash)
  let out := joinWith [slash] (((splitOn slash p).foldl (cleanStep rooted) []).reverse)
  if rooted then slash :: out else if out = [] then b! "." else out

/-- `filepath.Join` of two elements. -/
def filepathJoin (a b : GoString) : GoString :=
  if a ≠ [] then filepathClean (a ++ [slash] ++ b)
  else if b ≠ [] then filepathClean b
  else []

/-- `filepath.Dir`: what precedes the last slash, cleaned. -/
def filepathDir (p : GoString) : GoString :=
  filepathClean ((p.reverse.dropWhile (· != slash)).reverse)

/-! ### Calls to the outside -/

/-- An `error` value. -/
inductive Err where
  /-- an error from outside -/
  | external (id : Nat)
  /-- a `*FormatError` with the unformatted code — model.go:168-173 -/
  | format (unformatted : GoString)
  /-- `errors.New("GOPATH is empty")` -/
  | gopath
  deriving DecidableEq, Repr

/-- A call to the outside with its answer. A writer is named by the path it was opened for and the
number of calls made before it was opened. -/
inductive Event where
  | open (path : GoString) (answer : Option Nat)
  | write (writer : Nat) (data : GoString) (answer : Option Nat)
  | close (writer : Nat) (answer : Option Nat)
  | mkdirAll (dir : GoString) (answer : Option Nat)
  deriving DecidableEq, Repr

/-- The outside: answers a call, given all earlier events (in order). `some n` is an error. -/
structure World where
  openAnswer : List Event → GoString → Option Nat
  writeAnswer : List Event → Nat → GoString → Option Nat
  closeAnswer : List Event → Nat → Option Nat := fun _ _ => none
  mkdirAnswer : List Event → GoString → Option Nat

/-- What code that writes files returns: the outcome (an error or nil), the heap, and the calls made so
far. -/
abbrev Run := Outcome (Option Err) × Heap × List Event

/-- The end of `WriteGoFile` — model.go:207-215: formats and writes. -/
def emit (env : Env) (w : World) (writer : Nat) (text : GoString) (es : List Event) :
    Option Err × List Event :=
  match env.format text with
  | none => (some (.format text), es)
  | some formatted =>
    match w.writeAnswer es writer formatted with
    | some e => (some (.external e), es ++ [.write writer formatted (some e)])
    | none => (none, es ++ [.write writer formatted none])

/-- `WriteGoFile` — model.go:196-216. -/
def writeGoFile (env : Env) (fuel : Nat) (w : World) (writer : Nat) (p : Ptr) (h : Heap)
    (es : List Event) : Run :=
  match renderFile env fuel p h with
  | (.ok text, h') =>
    match emit env w writer text es with
    | (r, es') => (.ok r, h', es')
  | (.panic, h') => (.panic, h', es)
  | (.hang, h') => (.hang, h', es)

/-- The function literal with the deferred `Close` — model.go:234-237: the writer is closed also when
`WriteGoFile` panics. The error of `Close` is ignored. -/
def writeAndClose (env : Env) (fuel : Nat) (w : World) (writer : Nat) (p : Ptr) (h : Heap)
    (es : List Event) : Run :=
  match writeGoFile env fuel w writer p h es with
  | (.ok r, h', es') => (.ok r, h', es' ++ [.close writer (w.closeAnswer es' writer)])
  | (.panic, h', es') => (.panic, h', es' ++ [.close writer (w.closeAnswer es' writer)])
  | (.hang, h', es') => (.hang, h', es')

/-- The open function passed to `WriteGoFiles`: given the earlier events and the path, it makes calls
and answers with an error or nil. -/
abbrev OutFn := List Event → GoString → Option Nat × List Event

/-- `WriteGoFiles` — model.go:227-243. -/
def writeGoFiles (env : Env) (fuel : Nat) (w : World) (outFn : OutFn) :
    List Ptr → Heap → List Event → Run
  | [], h, es => (.ok none, h, es)
  | p :: ps, h, es =>
    match h.files p with
    | none => (.panic, h, es)
    | some f =>
      match outFn es (filepathJoin f.package.importPath f.name) with
      | (some e, es') => (.ok (some (.external e)), h, es')
      | (none, es') =>
        match writeAndClose env fuel w es'.length p h es' with
        | (.ok none, h', es'') => writeGoFiles env fuel w outFn ps h' es''
        | r => r

/-- An open function that makes the single call `open`. -/
def plainOpen (w : World) : OutFn := fun es path =>
  (w.openAnswer es path, es ++ [.open path (w.openAnswer es path)])

/-- The open function of `WriteGoFilesToFileSystem` — model.go:249-256. -/
def fileSystemOpen (w : World) (rootDir : GoString) : OutFn := fun es path =>
  let fullPath := filepathJoin rootDir path
  let dir := filepathDir fullPath
  match w.mkdirAnswer es dir with
  | some e => (some e, es ++ [.mkdirAll dir (some e)])
  | none => plainOpen w (es ++ [.mkdirAll dir none]) fullPath

/-- `WriteGoFilesToFileSystem` — model.go:248-257. -/
def writeGoFilesToFileSystem (env : Env) (fuel : Nat) (w : World) (rootDir : GoString)
    (ps : List Ptr) (h : Heap) (es : List Event) : Run :=
  writeGoFiles env fuel w (fileSystemOpen w rootDir) ps h es

/-- `filepath.ListSeparator` on Unix. -/
abbrev listSeparator : UInt8 := 58

/-- `WriteGoFilesToGoPath` — model.go:263-273. -/
def writeGoFilesToGoPath (env : Env) (fuel : Nat) (w : World) (gopath : GoString)
    (ps : List Ptr) (h : Heap) (es : List Event) : Run :=
  if gopath = [] then (.ok (some .gopath), h, es)
  else
    let paths := splitOn listSeparator gopath
    if paths.length ≠ 0 then (.ok (some .gopath), h, es)
    else writeGoFilesToFileSystem env fuel w (paths.headD []) ps h es

end Gopoet
