import Verif.Model.ListMemory
/-!
# Lists as values, and when lists in memory behave like them
-/

namespace Gopoet

/-- What a command does if lists are values: it makes a new list or changes one list. `none` is a panic. -/
def ListCmd.execV (ls : List (List Nat)) : ListCmd → Option (List (List Nat))
  | .make l _ => some (ls ++ [l])
  | .share o => do
    let l ← ls[o]?
    some (ls ++ [l])
  | .sub o a b => do
    let l ← ls[o]?
    if a ≤ b ∧ b ≤ l.length then some (ls ++ [(l.drop a).take (b - a)]) else none
  | .clone o => do
    let l ← ls[o]?
    some (ls ++ [l])
  | .add o x => do
    let l ← ls[o]?
    some (ls.set o (l ++ [x]))
  | .addAll o o' => do
    let l ← ls[o]?
    let l' ← ls[o']?
    some (ls.set o (l ++ l'))
  | .set o k x => do
    let l ← ls[o]?
    if k < l.length then some (ls.set o (l.set k x)) else none
  | .rewrite o xs => do
    let l ← ls[o]?
    if xs.length = l.length then some (ls.set o xs) else none

/-- What a program does if lists are values. -/
def runLists : List (List Nat) → List ListCmd → Option (List (List Nat))
  | ls, [] => some ls
  | ls, c :: cs => do
    let ls ← c.execV ls
    runLists ls cs

/-- After each step of the program, the lists in memory hold what they hold as values (or both panic). -/
def ActsOnLists (g : Room) (cmds : List ListCmd) : Prop :=
  ∀ n, (ListMem.run g {} (cmds.take n)).map ListMem.contents = runLists [] (cmds.take n)

/-! ### Places

Where lists are, regardless of what is in them and of how much room `append` makes: a list is at a place, which may be
shared with others. -/

/-- The list has the elements number `off` to `off + len` of a place. -/
structure Lane where
  place : Nat
  off : Nat
  len : Nat
  deriving DecidableEq, Repr

/-- The lists of a program, and how many elements a place can have: for a slice made by the caller that is known, for
one made by `append` it is not. -/
structure Lanes where
  caps : List (Option Nat) := []
  lanes : List Lane := []
  deriving DecidableEq, Repr

namespace Lanes

/-- There surely is no room for so many elements from `pos` on. -/
def full (s : Lanes) (place pos n : Nat) : Bool :=
  match s.caps.getD place none with
  | some cap => decide (cap < pos + n)
  | none => false

/-- `append` of `n` elements. -/
def append (s : Lanes) (o : Nat) (l : Lane) (n : Nat) : Lanes :=
  if n = 0 then s
  else if s.full l.place (l.off + l.len) n then
    { caps := s.caps ++ [none], lanes := s.lanes.set o ⟨s.caps.length, 0, l.len + n⟩ }
  else { s with lanes := s.lanes.set o { l with len := l.len + n } }

/-- Where the lists are after a command. -/
def exec (s : Lanes) : ListCmd → Option Lanes
  | .make l spare =>
    some { caps := s.caps ++ [some (l.length + spare)], lanes := s.lanes ++ [⟨s.caps.length, 0, l.length⟩] }
  | .share o => do
    let l ← s.lanes[o]?
    some { s with lanes := s.lanes ++ [l] }
  | .sub o a b => do
    let l ← s.lanes[o]?
    if a ≤ b ∧ b ≤ l.len then some { s with lanes := s.lanes ++ [⟨l.place, l.off + a, b - a⟩] } else none
  | .clone o => do
    let l ← s.lanes[o]?
    some { caps := s.caps ++ [if l.len = 0 then some 0 else none], lanes := s.lanes ++ [⟨s.caps.length, 0, l.len⟩] }
  | .add o _ => do
    let l ← s.lanes[o]?
    some (s.append o l 1)
  | .addAll o o' => do
    let l ← s.lanes[o]?
    let l' ← s.lanes[o']?
    some (s.append o l l'.len)
  | .set o k _ => do
    let l ← s.lanes[o]?
    if k < l.len then some s else none
  | .rewrite o xs => do
    let l ← s.lanes[o]?
    if xs.length = l.len then some s else none

/-- If the elements `xs` are stored at the place from `pos` on, then every list but `o` still holds what it should,
namely `ls`: it has none of these elements, or they are the same as before. -/
def Harmless (s : Lanes) (ls : List (List Nat)) (o place pos : Nat) (xs : List Nat) : Prop :=
  ∀ p l ys, p ≠ o → s.lanes[p]? = some l → ls[p]? = some ys → l.place = place →
    ∀ k x, xs[k]? = some x → l.off ≤ pos + k → pos + k < l.off + l.len → ys[pos + k - l.off]? = some x

/-- What a command stores does no harm to other lists, if `append` finds room wherever it may. -/
def Apart (s : Lanes) (ls : List (List Nat)) : ListCmd → Prop
  | .add o x => ∀ l, s.lanes[o]? = some l → s.full l.place (l.off + l.len) 1 = false →
    s.Harmless ls o l.place (l.off + l.len) [x]
  | .addAll o o' => ∀ l xs, s.lanes[o]? = some l → ls[o']? = some xs →
    s.full l.place (l.off + l.len) xs.length = false → s.Harmless ls o l.place (l.off + l.len) xs
  | .set o k x => ∀ l, s.lanes[o]? = some l → k < l.len → s.Harmless ls o l.place (l.off + k) [x]
  | .rewrite o xs => ∀ l, s.lanes[o]? = some l → xs.length = l.len → s.Harmless ls o l.place l.off xs
  | _ => True

end Lanes

/-- In no step of the program is harm done to another list. -/
def KeepsApart (s : Lanes) (ls : List (List Nat)) : List ListCmd → Prop
  | [] => True
  | c :: cs => s.Apart ls c ∧ ∀ s' ls', s.exec c = some s' → c.execV ls = some ls' → KeepsApart s' ls' cs

end Gopoet
