import Verif.Model.Text
/-!
# The lists that builders keep, with memory

Declarations, code blocks, files and specs hold slices, and so do the callers of gopoet. `Verif.Model.Builders` takes
these lists as values. Go keeps the slice that was passed as `s...` itself, copies of an object share the slice, and
`append` writes into the room behind the elements if there is any. Here is what these functions do to the lists, with
arrays in memory.

What is in the lists does not matter: elements are numbers (the addresses of specs, or of arguments).
-/

namespace Gopoet

/-- A slice: `len` elements of an array, from `off` on. Its capacity ends with the array. -/
structure View where
  arr : Nat
  off : Nat
  len : Nat
  deriving DecidableEq, Repr

/-- Memory: arrays by address, and the lists of a program, that is its variables of slice types and the slices in its
declarations, code blocks, files and specs. -/
structure ListMem where
  arrays : List (List Nat) := []
  views : List View := []
  deriving DecidableEq, Repr

/-- How many more elements than needed `append` makes room for when it allocates: that is up to Go. -/
abbrev Room := ListMem → View → Nat

/-- What a program does with lists. They are numbered in the order in which they are made. -/
inductive ListCmd where
  /-- `make` and stores by the caller: a slice with these elements and so much room behind them. Without room: a
  slice literal, or a call `NewConstDecl(a, b)`, for which Go makes a slice. -/
  | make (l : List Nat) (spare : Nat)
  /-- The slice `s` is stored elsewhere: `NewConstDecl(s...)` (model.go:414-416), `NewVarDecl` (650-652),
  `NewTypeDecl` (856-858), the bodies kept by `NewStructTypeSpec` (1005-1009) and `NewInterfaceTypeSpec` (1032-1036),
  the arguments kept by `Printf` and `Printlnf` (code.go:50-60), `StructType` and `InterfaceType`
  (types.go:743-754), a copy of a declaration or code block by assignment, the use of a field like `d.Consts`. -/
  | share (o : Nat)
  /-- The caller takes `s[a:b]`, inside of what is in `s`. -/
  | sub (o a b : Nat)
  /-- A copy of its own: `append([]T{}, s...)` in `Fields`, `Methods` and `Embeds` (types.go:348, 370-371) and in
  `NewTypeSpec` (model.go:953-954). There is no room behind an empty one: `append` then returns the literal. -/
  | clone (o : Nat)
  /-- `s = append(s, x)`: `AddConst` (model.go:420-423), `AddVar` (656-659), `AddType` (862-865), `AddElement`
  (297-301), `Printf` (code.go:50-53) and `RenderCode` (code.go:70-73) for the block, or the caller. -/
  | add (o x : Nat)
  /-- `s = append(s, t...)`: `AddCode` — code.go:77-80. -/
  | addAll (o o' : Nat)
  /-- The caller stores into a slice. -/
  | set (o k x : Nat)
  /-- `line.qualify` (code.go:137-215) stores into the slice of arguments. -/
  | rewrite (o : Nat) (l : List Nat)
  deriving DecidableEq, Repr

/-- Elements of an array are replaced, from `pos` on. -/
def overwrite (l : List Nat) (pos : Nat) (xs : List Nat) : List Nat := l.take pos ++ xs ++ l.drop (pos + xs.length)

namespace ListMem

/-- The array at an address. -/
def arrayOf (m : ListMem) (a : Nat) : List Nat := m.arrays.getD a []

/-- What is in a slice. -/
def content (m : ListMem) (v : View) : List Nat := ((m.arrayOf v.arr).drop v.off).take v.len

/-- What is in the lists. -/
def contents (m : ListMem) : List (List Nat) := m.views.map m.content

/-- Elements are stored into an array. -/
def write (m : ListMem) (a pos : Nat) (xs : List Nat) : ListMem :=
  { m with arrays := m.arrays.set a (overwrite (m.arrayOf a) pos xs) }

/-- `append`. With no new elements, it returns the slice. If there is room, they are stored into the array, otherwise
there is a new array. -/
def append (g : Room) (m : ListMem) (o : Nat) (v : View) (xs : List Nat) : ListMem :=
  if xs = [] then m
  else if v.off + v.len + xs.length ≤ (m.arrayOf v.arr).length then
    { m.write v.arr (v.off + v.len) xs with views := m.views.set o { v with len := v.len + xs.length } }
  else
    { arrays := m.arrays ++ [m.content v ++ xs ++ List.replicate (g m v) 0],
      views := m.views.set o ⟨m.arrays.length, 0, v.len + xs.length⟩ }

/-- What a command does; `none` is a panic. -/
def exec (g : Room) (m : ListMem) : ListCmd → Option ListMem
  | .make l spare =>
    some { arrays := m.arrays ++ [l ++ List.replicate spare 0], views := m.views ++ [⟨m.arrays.length, 0, l.length⟩] }
  | .share o => do
    let v ← m.views[o]?
    some { m with views := m.views ++ [v] }
  | .sub o a b => do
    let v ← m.views[o]?
    if a ≤ b ∧ b ≤ v.len then some { m with views := m.views ++ [⟨v.arr, v.off + a, b - a⟩] } else none
  | .clone o => do
    let v ← m.views[o]?
    some { arrays := m.arrays ++ [m.content v ++ List.replicate (if v.len = 0 then 0 else g m v) 0],
           views := m.views ++ [⟨m.arrays.length, 0, v.len⟩] }
  | .add o x => do
    let v ← m.views[o]?
    some (m.append g o v [x])
  | .addAll o o' => do
    let v ← m.views[o]?
    let w ← m.views[o']?
    some (m.append g o v (m.content w))
  | .set o k x => do
    let v ← m.views[o]?
    if k < v.len then some (m.write v.arr (v.off + k) [x]) else none
  | .rewrite o l => do
    let v ← m.views[o]?
    if l.length = v.len then some (m.write v.arr v.off l) else none

/-- What a program does. -/
def run (g : Room) : ListMem → List ListCmd → Option ListMem
  | m, [] => some m
  | m, c :: cs => do
    let m ← m.exec g c
    m.run g cs

end ListMem

end Gopoet
