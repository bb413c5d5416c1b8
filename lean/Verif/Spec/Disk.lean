import Verif.Model.Output
/-!
# Specification vocabulary for the contents of files on a disk
-/

namespace Gopoet

/-- The files on a disk, by path. Paths are names here: that two paths may lead to the same file is not
represented. -/
abbrev Disk := GoString → Option GoString

/-- The disk with another contents of one file. -/
def Disk.put (d : Disk) (path content : GoString) : Disk :=
  fun q => if q = path then some content else d q

/-- What calls do to a disk. `n` is the number of calls made before, `writers` tells the paths of open
writers. Opening truncates the file or creates it (`O_CREATE|O_TRUNC`), `Write` appends. After a
failed `Write` or `Close` the file may contain anything. -/
inductive Disk.After : Nat → (Nat → Option GoString) → Disk → List Event → Disk → Prop
  | nil {n writers d} : After n writers d [] d
  | mkdirAll {n writers d dir a es d'} : After (n + 1) writers d es d' →
      After n writers d (.mkdirAll dir a :: es) d'
  | opens {n writers d path es d'} :
      After (n + 1) (fun k => if k = n + 1 then some path else writers k) (d.put path []) es d' →
      After n writers d (.open path none :: es) d'
  | openFails {n writers d path e es d'} : After (n + 1) writers d es d' →
      After n writers d (.open path (some e) :: es) d'
  | write {n writers d k path old data es d'} : writers k = some path → d path = some old →
      After (n + 1) writers (d.put path (old ++ data)) es d' →
      After n writers d (.write k data none :: es) d'
  | writeFails {n writers d k path data e c es d'} : writers k = some path →
      After (n + 1) writers (d.put path c) es d' →
      After n writers d (.write k data (some e) :: es) d'
  | close {n writers d k es d'} : After (n + 1) writers d es d' →
      After n writers d (.close k none :: es) d'
  | closeFails {n writers d k path e c es d'} : writers k = some path →
      After (n + 1) writers (d.put path c) es d' →
      After n writers d (.close k (some e) :: es) d'

/-- No `Close` has failed. -/
def ClosesFine (es : List Event) : Prop := ∀ k e, Event.close k (some e) ∉ es

/-- Files rendered one after the other, and formatted: what is written, and the heap afterwards. -/
inductive RenderedInTurn (env : Env) (fuel : Nat) : Heap → List Ptr → List GoString → Heap → Prop
  | nil {h} : RenderedInTurn env fuel h [] [] h
  | cons {h p text out h1 ps outs h'} : renderFile env fuel p h = (.ok text, h1) →
      env.format text = some out → RenderedInTurn env fuel h1 ps outs h' →
      RenderedInTurn env fuel h (p :: ps) (out :: outs) h'

/-- The disk after files were written in order. -/
def Disk.putAll (d : Disk) : List GoString → List GoString → Disk
  | path :: paths, c :: cs => (d.put path c).putAll paths cs
  | _, _ => d

end Gopoet
