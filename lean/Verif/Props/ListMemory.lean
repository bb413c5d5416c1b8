import Verif.Proof.ListMemory
/-!
# Property C60: the lists in declarations, code blocks and files
-/

namespace Gopoet

/-! ## C60 -/

/-- The property in full: declarations, code blocks, files and specs, and the slices of the caller, hold what was put
into each of them and nothing else. -/
def C60_full : Prop := ∀ (g : Room) (cmds : List ListCmd), ActsOnLists g cmds

/-- The lists after a program, if `append` makes room for two more elements. -/
private def listsAfter (cmds : List ListCmd) : Option (List (List Nat)) :=
  (ListMem.run (fun _ _ => 2) {} cmds).map ListMem.contents

-- Two declarations from the same slice of the caller, which has room. The constants that are added overwrite each
-- other: both declarations have the second one.
example : listsAfter [.make [1, 2] 2, .share 0, .share 0, .add 1 3, .add 2 4]
    = some [[1, 2], [1, 2, 4], [1, 2, 4]] := by decide

example : runLists [] [.make [1, 2] 2, .share 0, .share 0, .add 1 3, .add 2 4]
    = some [[1, 2], [1, 2, 3], [1, 2, 4]] := by decide

-- A part of a slice: the constant added to the declaration replaces one in the slice.
example : listsAfter [.make [1, 2, 3] 0, .sub 0 0 1, .add 1 4] = some [[1, 4, 3], [1, 4]] := by decide

-- The caller uses the slice again after the declaration was made.
example : listsAfter [.make [1, 2] 0, .share 0, .set 0 0 5] = some [[5, 2], [5, 2]] := by decide

-- `Printf` with a slice of arguments, twice. Writing one file changes the arguments of the other.
example : listsAfter [.make [1, 2] 0, .share 0, .share 0, .rewrite 1 [7, 2]]
    = some [[7, 2], [7, 2], [7, 2]] := by decide

-- A copy of a code block that had three elements added, and then one more is added to each.
example : listsAfter [.make [] 0, .add 0 1, .add 0 2, .add 0 3, .share 0, .add 0 4, .add 1 5]
    = some [[1, 2, 3, 4], [1, 2, 3, 5]] := by decide

-- whereas copies by `append([]T{}, s...)` are on their own
example : listsAfter [.make [1] 5, .clone 0, .add 0 2, .add 1 3] = some [[1, 2], [1, 3]] := by decide

theorem not_C60_full : ¬ C60_full := fun h => by
  have := h (fun _ _ => 0) [.make [1, 2] 2, .share 0, .share 0, .add 1 3, .add 2 4] 5
  revert this
  decide

theorem keepsApart_take : ∀ (n : Nat) (cmds : List ListCmd) (s : Lanes) (ls : List (List Nat)), KeepsApart s ls cmds →
    KeepsApart s ls (cmds.take n)
  | 0, _, _, _, _ => trivial
  | _ + 1, [], _, _, _ => trivial
  | n + 1, _ :: cs, _, _, h => ⟨h.1, fun s' ls' hs hl => keepsApart_take n cs s' ls' (h.2 s' ls' hs hl)⟩

/-- C60, for programs that do no harm: what is stored into memory that other lists have too is the same as before, even
if `append` finds room wherever it may. -/
theorem C60_values_partial {cmds : List ListCmd} (h : KeepsApart {} [] cmds) (g : Room) : ActsOnLists g cmds :=
  fun n => run_values g (cmds.take n) Tracks.empty (keepsApart_take n cmds _ _ h)

/-- C60: these are exactly the programs for which the property holds, however much room `append` makes. -/
theorem C60_exactly_partial (cmds : List ListCmd) : (∀ g, ActsOnLists g cmds) ↔ KeepsApart {} [] cmds := by
  refine ⟨fun h => ?_, C60_values_partial⟩
  by_contra hn
  obtain ⟨K, hK⟩ := run_harm cmds {} [] hn
  obtain ⟨n, hne⟩ := hK (fun _ _ => K) (fun _ _ => Nat.le_refl K) {} [] Tracks.empty rfl (Roomy.empty K)
  exact hne (h _ n)

/-! ### Programs that are easily seen to do no harm -/

/-- The list has a place of its own. -/
def Lanes.Alone (s : Lanes) (o : Nat) : Prop :=
  ∀ (l : Lane) (p : Nat) (k : Lane), s.lanes[o]? = some l → s.lanes[p]? = some k → l.place = k.place → p = o

/-- The list ends where its place ends, so that there is no room behind it. -/
def Lanes.Closed (s : Lanes) (o : Nat) : Prop :=
  ∀ l : Lane, s.lanes[o]? = some l → s.caps[l.place]? = some (some (l.off + l.len))

/-- The places of the lists are places. -/
def Lanes.Placed (s : Lanes) : Prop := ∀ (o : Nat) (l : Lane), s.lanes[o]? = some l → l.place < s.caps.length

namespace Lanes
variable {s s' : Lanes}

theorem harmless_alone {ls : List (List Nat)} {o place pos : Nat} {xs : List Nat} {l : Lane} (h : s.Alone o)
    (hl : s.lanes[o]? = some l) (hp : l.place = place) : s.Harmless ls o place pos xs :=
  fun p k _ hpo hk _ e => (hpo (h l p k hl hk (by rw [hp, e]))).elim

theorem harmless_nil {ls : List (List Nat)} {o place pos : Nat} : s.Harmless ls o place pos [] :=
  fun p k _ hpo hk _ e j x hx => by simp at hx

theorem full_closed {o n : Nat} {l : Lane} (h : s.Closed o) (hl : s.lanes[o]? = some l) (hn : n ≠ 0) :
    s.full l.place (l.off + l.len) n = true := by
  have := h l hl
  rw [full, List.getD_eq_getElem?_getD, this]
  simp
  omega

open Roomy (getElem?_push getElem?_put)

/-- Each list has a place of its own or no room. -/
def Neat (s : Lanes) : Prop := s.Placed ∧ ∀ o, s.Alone o ∨ s.Closed o

theorem apart_of_neat {ls : List (List Nat)} (h : s.Neat) {c : ListCmd}
    (hc : match c with | .set o _ _ => s.Alone o | .rewrite o _ => s.Alone o | _ => True) : s.Apart ls c := by
  cases c with
  | make l spare => trivial
  | share o => trivial
  | sub o a b => trivial
  | clone o => trivial
  | add o x =>
    intro l hl hf
    rcases h.2 o with ha | ha
    · exact harmless_alone ha hl rfl
    · rw [full_closed ha hl (by omega)] at hf
      cases hf
  | addAll o o' =>
    intro l xs hl _ hf
    by_cases hx : xs = []
    · subst hx
      exact harmless_nil
    rcases h.2 o with ha | ha
    · exact harmless_alone ha hl rfl
    · rw [full_closed ha hl (by simpa using hx)] at hf
      cases hf
  | set o k x => exact fun l hl _ => harmless_alone hc hl rfl
  | rewrite o xs => exact fun l hl _ => harmless_alone hc hl rfl

theorem neat_new (h : s.Neat) (c : Option Nat) (n : Nat) :
    Neat ⟨s.caps ++ [c], s.lanes ++ [⟨s.caps.length, 0, n⟩]⟩ := by
  refine ⟨fun p k hk => ?_, fun p => ?_⟩
  · rcases getElem?_push hk with ⟨_, h2⟩ | ⟨_, h2⟩
    · have := h.1 p k h2
      simp only [List.length_append, List.length_singleton]
      omega
    · subst h2
      simp
  · by_cases hp : p < s.lanes.length
    · rcases h.2 p with ha | ha
      · left
        intro l q k hl hk e
        rcases getElem?_push hl with ⟨_, h2⟩ | ⟨h2, _⟩ <;> rcases getElem?_push hk with ⟨_, h4⟩ | ⟨_, h4⟩
        · exact ha l q k h2 h4 e
        · have := h.1 p l h2
          subst h4
          dsimp only at e
          omega
        · omega
        · omega
      · right
        intro l hl
        rcases getElem?_push hl with ⟨_, h2⟩ | ⟨h2, _⟩
        · rw [List.getElem?_append_left (h.1 p l h2)]
          exact ha l h2
        · omega
    · left
      intro l q k hl hk e
      rcases getElem?_push hl with ⟨_, h2⟩ | ⟨h2, h2'⟩
      · omega
      rcases getElem?_push hk with ⟨_, h4⟩ | ⟨h4, _⟩
      · have := h.1 q k h4
        subst h2'
        dsimp only at e
        omega
      · omega

theorem neat_append (h : s.Neat) {o n : Nat} {l : Lane} (hl : s.lanes[o]? = some l) : (s.append o l n).Neat := by
  unfold append
  split
  · exact h
  rename_i hn
  have hlt := (List.getElem?_eq_some_iff.1 hl).1
  split
  · refine ⟨fun p k hk => ?_, fun p => ?_⟩
    · rcases getElem?_put hk with ⟨_, h2⟩ | ⟨_, h2⟩
      · have := h.1 p k h2
        simp only [List.length_append, List.length_singleton]
        omega
      · subst h2
        simp
    · by_cases hp : p = o
      · left
        intro l q k hl hk e
        rcases getElem?_put hl with ⟨h2, _⟩ | ⟨_, h2⟩
        · exact (h2 hp).elim
        rcases getElem?_put hk with ⟨_, h4⟩ | ⟨h4, _⟩
        · have := h.1 q k h4
          subst h2
          dsimp only at e
          omega
        · rw [h4, hp]
      · rcases h.2 p with ha | ha
        · left
          intro l q k hl hk e
          rcases getElem?_put hl with ⟨_, h2⟩ | ⟨h2, _⟩
          · rcases getElem?_put hk with ⟨_, h4⟩ | ⟨_, h4⟩
            · exact ha l q k h2 h4 e
            · have := h.1 p l h2
              subst h4
              dsimp only at e
              omega
          · exact (hp h2).elim
        · right
          intro l hl
          rcases getElem?_put hl with ⟨_, h2⟩ | ⟨h2, _⟩
          · rw [List.getElem?_append_left (h.1 p l h2)]
            exact ha l h2
          · exact (hp h2).elim
  · rename_i hf
    have ho : s.Alone o := (h.2 o).resolve_right fun hc => hf (full_closed hc hl hn)
    refine ⟨fun p k hk => ?_, fun p => ?_⟩
    · rcases getElem?_put hk with ⟨_, h2⟩ | ⟨_, h2⟩
      · exact h.1 p k h2
      · subst h2
        exact h.1 o l hl
    · have key : ∀ {q : Nat} {k : Lane}, (s.lanes.set o ⟨l.place, l.off, l.len + n⟩)[q]? = some k →
          ∃ k', s.lanes[q]? = some k' ∧ k'.place = k.place := by
        intro q k hk
        rcases getElem?_put hk with ⟨_, h2⟩ | ⟨h2, h2'⟩
        · exact ⟨k, h2, rfl⟩
        · subst h2 h2'
          exact ⟨l, hl, rfl⟩
      by_cases hp : p = o
      · left
        intro l' q k hl' hk e
        obtain ⟨l1, h1, e1⟩ := key hl'
        obtain ⟨k1, h2, e2⟩ := key hk
        rw [hp] at h1 ⊢
        exact ho l1 q k1 h1 h2 (by rw [e1, e2, e])
      · rcases h.2 p with ha | ha
        · left
          intro l' q k hl' hk e
          obtain ⟨l1, h1, e1⟩ := key hl'
          obtain ⟨k1, h2, e2⟩ := key hk
          exact ha l1 q k1 h1 h2 (by rw [e1, e2, e])
        · right
          intro l' hl'
          rcases getElem?_put hl' with ⟨_, h2⟩ | ⟨h2, _⟩
          · exact ha l' h2
          · exact (hp h2).elim

/-- A slice is not shared. -/
def _root_.Gopoet.ListCmd.own : ListCmd → Bool
  | .share _ => false
  | .sub _ _ _ => false
  | _ => true

/-- Slices without room are made or shared. -/
def _root_.Gopoet.ListCmd.given : ListCmd → Bool
  | .make _ spare => spare == 0
  | .share _ => true
  | _ => false

/-- Nothing is stored into a slice, except behind its end. -/
def _root_.Gopoet.ListCmd.adds : ListCmd → Bool
  | .set _ _ _ => false
  | .rewrite _ _ => false
  | _ => true

theorem neat_exec (h : s.Neat) {c : ListCmd} (hc : c.own = true) (he : s.exec c = some s') : s'.Neat := by
  cases c with
  | share o => cases hc
  | sub o a b => cases hc
  | make l spare =>
    simp only [exec, Option.some.injEq] at he
    subst he
    exact neat_new h _ _
  | clone o =>
    simp only [exec, Option.bind_eq_bind, Option.bind_eq_some_iff, Option.some.injEq] at he
    obtain ⟨l, hl, rfl⟩ := he
    exact neat_new h _ _
  | add o x =>
    simp only [exec, Option.bind_eq_bind, Option.bind_eq_some_iff, Option.some.injEq] at he
    obtain ⟨l, hl, rfl⟩ := he
    exact neat_append h hl
  | addAll o o' =>
    simp only [exec, Option.bind_eq_bind, Option.bind_eq_some_iff, Option.some.injEq] at he
    obtain ⟨l, hl, l', hl', rfl⟩ := he
    exact neat_append h hl
  | set o k x =>
    simp only [exec, Option.bind_eq_bind, Option.bind_eq_some_iff] at he
    obtain ⟨l, hl, he⟩ := he
    split at he <;> simp only [Option.some.injEq, reduceCtorEq] at he
    exact he ▸ h
  | rewrite o xs =>
    simp only [exec, Option.bind_eq_bind, Option.bind_eq_some_iff] at he
    obtain ⟨l, hl, he⟩ := he
    split at he <;> simp only [Option.some.injEq, reduceCtorEq] at he
    exact he ▸ h

/-- Every list has a place of its own. -/
def AllAlone (s : Lanes) : Prop := s.Placed ∧ ∀ o, s.Alone o

theorem alone_new (h : s.AllAlone) (c : Option Nat) (n : Nat) :
    AllAlone ⟨s.caps ++ [c], s.lanes ++ [⟨s.caps.length, 0, n⟩]⟩ := by
  refine ⟨(neat_new ⟨h.1, fun o => .inl (h.2 o)⟩ c n).1, fun p l q k hl hk e => ?_⟩
  rcases getElem?_push hl with ⟨h1, h2⟩ | ⟨h1, h2⟩ <;> rcases getElem?_push hk with ⟨h3, h4⟩ | ⟨h3, h4⟩
  · exact h.2 p l q k h2 h4 e
  · have := h.1 p l h2
    subst h4
    dsimp only at e
    omega
  · have := h.1 q k h4
    subst h2
    dsimp only at e
    omega
  · omega

theorem alone_append (h : s.AllAlone) {o n : Nat} {l : Lane} (hl : s.lanes[o]? = some l) : (s.append o l n).AllAlone := by
  refine ⟨(neat_append ⟨h.1, fun o => .inl (h.2 o)⟩ hl).1, ?_⟩
  unfold append
  split
  · exact h.2
  split
  · intro p l' q k hl' hk e
    rcases getElem?_put hl' with ⟨h1, h2⟩ | ⟨h1, h2⟩ <;> rcases getElem?_put hk with ⟨h3, h4⟩ | ⟨h3, h4⟩
    · exact h.2 p l' q k h2 h4 e
    · have := h.1 p l' h2
      subst h4
      dsimp only at e
      omega
    · have := h.1 q k h4
      subst h2
      dsimp only at e
      omega
    · omega
  · intro p l' q k hl' hk e
    rcases getElem?_put hl' with ⟨h1, h2⟩ | ⟨h1, h2⟩ <;> rcases getElem?_put hk with ⟨h3, h4⟩ | ⟨h3, h4⟩
    · exact h.2 p l' q k h2 h4 e
    · subst h4
      rw [h3]
      exact h.2 p l' o l h2 hl e
    · subst h2
      rw [h1]
      exact h.2 o l q k hl h4 e
    · omega

theorem alone_exec (h : s.AllAlone) {c : ListCmd} (hc : c.own = true) (he : s.exec c = some s') : s'.AllAlone := by
  cases c with
  | share o => cases hc
  | sub o a b => cases hc
  | make l spare =>
    simp only [exec, Option.some.injEq] at he
    subst he
    exact alone_new h _ _
  | clone o =>
    simp only [exec, Option.bind_eq_bind, Option.bind_eq_some_iff, Option.some.injEq] at he
    obtain ⟨l, hl, rfl⟩ := he
    exact alone_new h _ _
  | add o x =>
    simp only [exec, Option.bind_eq_bind, Option.bind_eq_some_iff, Option.some.injEq] at he
    obtain ⟨l, hl, rfl⟩ := he
    exact alone_append h hl
  | addAll o o' =>
    simp only [exec, Option.bind_eq_bind, Option.bind_eq_some_iff, Option.some.injEq] at he
    obtain ⟨l, hl, l', hl', rfl⟩ := he
    exact alone_append h hl
  | set o k x =>
    simp only [exec, Option.bind_eq_bind, Option.bind_eq_some_iff] at he
    obtain ⟨l, hl, he⟩ := he
    split at he <;> simp only [Option.some.injEq, reduceCtorEq] at he
    exact he ▸ h
  | rewrite o xs =>
    simp only [exec, Option.bind_eq_bind, Option.bind_eq_some_iff] at he
    obtain ⟨l, hl, he⟩ := he
    split at he <;> simp only [Option.some.injEq, reduceCtorEq] at he
    exact he ▸ h

/-- No list has room. -/
def AllClosed (s : Lanes) : Prop := s.Placed ∧ ∀ o, s.Closed o

theorem closed_exec (h : s.AllClosed) {c : ListCmd} (hc : c.given = true) (he : s.exec c = some s') :
    s'.AllClosed := by
  cases c with
  | make l spare =>
    have hs : spare = 0 := by simpa [ListCmd.given] using hc
    simp only [exec, Option.some.injEq] at he
    subst he hs
    refine ⟨(neat_new ⟨h.1, fun o => .inr (h.2 o)⟩ _ _).1, fun p k hk => ?_⟩
    rcases getElem?_push hk with ⟨_, h2⟩ | ⟨_, h2⟩
    · rw [List.getElem?_append_left (h.1 p k h2)]
      exact h.2 p k h2
    · subst h2
      simp
  | share o =>
    simp only [exec, Option.bind_eq_bind, Option.bind_eq_some_iff, Option.some.injEq] at he
    obtain ⟨l, hl, rfl⟩ := he
    refine ⟨fun p k hk => ?_, fun p k hk => ?_⟩
    · rcases getElem?_push hk with ⟨_, h2⟩ | ⟨_, h2⟩
      · exact h.1 p k h2
      · subst h2
        exact h.1 o l hl
    · rcases getElem?_push hk with ⟨_, h2⟩ | ⟨_, h2⟩
      · exact h.2 p k h2
      · subst h2
        exact h.2 o l hl
  | sub o a b => cases hc
  | clone o => cases hc
  | add o x => cases hc
  | addAll o o' => cases hc
  | set o k x => cases hc
  | rewrite o xs => cases hc

end Lanes

theorem keepsApart_alone : ∀ (cmds : List ListCmd) {s : Lanes} {ls : List (List Nat)}, s.AllAlone →
    cmds.all ListCmd.own = true → KeepsApart s ls cmds
  | [], _, _, _, _ => trivial
  | c :: cs, s, ls, h, hc => by
    rw [List.all_cons, Bool.and_eq_true] at hc
    refine ⟨Lanes.apart_of_neat ⟨h.1, fun o => .inl (h.2 o)⟩ ?_, fun s' ls' he _ =>
      keepsApart_alone cs (Lanes.alone_exec h hc.1 he) hc.2⟩
    split
    · exact h.2 _
    · exact h.2 _
    · trivial

theorem keepsApart_neat : ∀ (cmds : List ListCmd) {s : Lanes} {ls : List (List Nat)}, s.Neat →
    cmds.all ListCmd.own = true → cmds.all ListCmd.adds = true → KeepsApart s ls cmds
  | [], _, _, _, _, _ => trivial
  | c :: cs, s, ls, h, hc, ha => by
    rw [List.all_cons, Bool.and_eq_true] at hc ha
    refine ⟨Lanes.apart_of_neat h ?_, fun s' ls' he _ => keepsApart_neat cs (Lanes.neat_exec h hc.1 he) hc.2 ha.2⟩
    split
    · exact absurd ha.1 (by simp [ListCmd.adds])
    · exact absurd ha.1 (by simp [ListCmd.adds])
    · trivial

theorem keepsApart_given : ∀ (given rest : List ListCmd) {s : Lanes} {ls : List (List Nat)}, s.AllClosed →
    given.all ListCmd.given = true → rest.all ListCmd.own = true → rest.all ListCmd.adds = true →
    KeepsApart s ls (given ++ rest)
  | [], rest, _, _, h, _, ho, ha => keepsApart_neat rest ⟨h.1, fun o => .inr (h.2 o)⟩ ho ha
  | c :: cs, rest, s, ls, h, hc, ho, ha => by
    rw [List.all_cons, Bool.and_eq_true] at hc
    refine ⟨Lanes.apart_of_neat ⟨h.1, fun o => .inr (h.2 o)⟩ ?_, fun s' ls' he _ =>
      keepsApart_given cs rest (Lanes.closed_exec h hc.1 he) hc.2 ho ha⟩
    have := hc.1
    cases c <;> simp_all [ListCmd.given]

/-- C60: if each list is made for one owner, with slices passed element by element, then all is well. -/
theorem C60_own_lists {cmds : List ListCmd} (h : cmds.all ListCmd.own = true) (g : Room) : ActsOnLists g cmds :=
  C60_values_partial (keepsApart_alone cmds ⟨by simp [Lanes.Placed], by simp [Lanes.Alone]⟩ h) g

/-- C60: the same slices may be given to any number of declarations, code blocks and specs if there is no room behind
their elements, nothing is stored into them later, and slices that were appended to are not shared. -/
theorem C60_given_lists {given rest : List ListCmd} (hg : given.all ListCmd.given = true)
    (ho : rest.all ListCmd.own = true) (ha : rest.all ListCmd.adds = true) (g : Room) : ActsOnLists g (given ++ rest) :=
  C60_values_partial (keepsApart_given given rest ⟨by simp [Lanes.Placed], by simp [Lanes.Closed]⟩ hg ho ha) g

-- two declarations from the same slice, without room: each gets its own additions
example (g : Room) : ActsOnLists g [.make [1, 2] 0, .share 0, .share 0, .add 1 3, .add 2 4, .addAll 1 2] :=
  C60_given_lists (given := [.make [1, 2] 0, .share 0, .share 0]) (rest := [.add 1 3, .add 2 4, .addAll 1 2])
    rfl rfl rfl g

example (g : Room) : (ListMem.run g {} [.make [1, 2] 0, .share 0, .share 0, .add 1 3, .add 2 4, .addAll 1 2]).map
    ListMem.contents = some [[1, 2], [1, 2, 3, 1, 2, 4], [1, 2, 4]] :=
  C60_given_lists (given := [.make [1, 2] 0, .share 0, .share 0]) (rest := [.add 1 3, .add 2 4, .addAll 1 2])
    rfl rfl rfl g 6

-- a file to which declarations are added, and arguments that are rewritten when it is written
example (g : Room) : (ListMem.run g {} [.make [] 0, .add 0 1, .make [5, 6] 0, .add 0 2, .rewrite 1 [5, 7], .add 0 3]).map
    ListMem.contents = some [[1, 2, 3], [5, 7]] :=
  C60_own_lists (cmds := [.make [] 0, .add 0 1, .make [5, 6] 0, .add 0 2, .rewrite 1 [5, 7], .add 0 3]) (by decide) g 6

/-! ### Lengths -/

/-- the lengths of the lists -/
theorem Tracks.lengths {m : ListMem} {s : Lanes} {φ : List (Nat × Nat)} (t : Tracks m s φ) :
    m.contents.map List.length = s.lanes.map Lane.len := by
  refine List.ext_getElem? fun o => ?_
  rw [ListMem.contents, List.map_map, List.getElem?_map, List.getElem?_map]
  cases hv : m.views[o]? with
  | none => rw [(t.none_iff o).1 hv]; rfl
  | some v =>
    obtain ⟨l, hl⟩ := t.lane hv
    rw [hl]
    simp only [Option.map_some, Function.comp, ListMem.length_content (t.fits hv), (t.lanes hv hl).1]

theorem set_same {α : Type} {l : List α} {o : Nat} {a : α} (h : l[o]? = some a) : l.set o a = l := by
  refine List.ext_getElem? fun p => ?_
  rw [List.getElem?_set]
  split
  · rename_i e
    subst e
    rw [if_pos (List.getElem?_eq_some_iff.1 h).1, h]
  · rfl

theorem execV_lengths {s : Lanes} {ls : List (List Nat)} (h : ls.map List.length = s.lanes.map Lane.len) (c : ListCmd) :
    (c.execV ls).map (·.map List.length) = (s.exec c).map (·.lanes.map Lane.len) := by
  have get : ∀ o, (ls[o]?).map List.length = (s.lanes[o]?).map Lane.len := fun o => by
    rw [← List.getElem?_map, ← List.getElem?_map, h]
  have same : ∀ {o : Nat} {l : Lane}, s.lanes[o]? = some l →
      (s.lanes.map Lane.len).set o l.len = s.lanes.map Lane.len := fun hl =>
    set_same (by rw [List.getElem?_map, hl]; rfl)
  have look : ∀ o : Nat, (ls[o]? = none ∧ s.lanes[o]? = none) ∨
      ∃ (x : List Nat) (l : Lane), ls[o]? = some x ∧ s.lanes[o]? = some l ∧ x.length = l.len := by
    intro o
    have := get o
    cases h1 : ls[o]? <;> cases h2 : s.lanes[o]? <;> simp_all
  have app : ∀ {o n : Nat} {x ys : List Nat} {l : Lane}, ls[o]? = some x → s.lanes[o]? = some l → x.length = l.len →
      ys.length = n →
      (ls.set o (x ++ ys)).map List.length = (s.append o l n).lanes.map Lane.len := by
    intro o n x ys l hx hl e hn
    rw [List.map_set, h, List.length_append, e, hn]
    unfold Lanes.append
    split
    · rename_i h0
      subst h0
      rw [Nat.add_zero]
      exact same hl
    · split <;> simp only [List.map_set]
  cases c with
  | make l spare => simp [ListCmd.execV, Lanes.exec, h]
  | share o =>
    rcases look o with ⟨h1, h2⟩ | ⟨x, l, h1, h2, e⟩ <;> simp [ListCmd.execV, Lanes.exec, *]
  | sub o a b =>
    rcases look o with ⟨h1, h2⟩ | ⟨x, l, h1, h2, e⟩
    · simp [ListCmd.execV, Lanes.exec, h1, h2]
    · simp only [ListCmd.execV, Lanes.exec, h1, h2, Option.bind_eq_bind, Option.bind_some, e]
      split
      · simp only [Option.map_some, List.map_append, h, List.map_cons, List.map_nil, List.length_take, List.length_drop, e]
        congr 3
        omega
      · rfl
  | clone o =>
    rcases look o with ⟨h1, h2⟩ | ⟨x, l, h1, h2, e⟩ <;> simp [ListCmd.execV, Lanes.exec, *]
  | add o x =>
    rcases look o with ⟨h1, h2⟩ | ⟨y, l, h1, h2, e⟩
    · simp [ListCmd.execV, Lanes.exec, h1, h2]
    · simp only [ListCmd.execV, Lanes.exec, h1, h2, Option.bind_eq_bind, Option.bind_some, Option.map_some]
      rw [app h1 h2 e rfl]
      rfl
  | addAll o o' =>
    rcases look o with ⟨h1, h2⟩ | ⟨y, l, h1, h2, e⟩
    · simp [ListCmd.execV, Lanes.exec, h1, h2]
    rcases look o' with ⟨h3, h4⟩ | ⟨y', l', h3, h4, e'⟩
    · simp [ListCmd.execV, Lanes.exec, h1, h2, h3, h4]
    · simp only [ListCmd.execV, Lanes.exec, h1, h2, h3, h4, Option.bind_eq_bind, Option.bind_some, Option.map_some]
      rw [app h1 h2 e e']
  | set o k x =>
    rcases look o with ⟨h1, h2⟩ | ⟨y, l, h1, h2, e⟩
    · simp [ListCmd.execV, Lanes.exec, h1, h2]
    · simp only [ListCmd.execV, Lanes.exec, h1, h2, Option.bind_eq_bind, Option.bind_some, e]
      split
      · simp only [Option.map_some, List.map_set, h, List.length_set, e]
        rw [same h2]
      · rfl
  | rewrite o xs =>
    rcases look o with ⟨h1, h2⟩ | ⟨y, l, h1, h2, e⟩
    · simp [ListCmd.execV, Lanes.exec, h1, h2]
    · simp only [ListCmd.execV, Lanes.exec, h1, h2, Option.bind_eq_bind, Option.bind_some, e]
      split
      · rename_i hx
        simp only [Option.map_some, List.map_set, h, hx]
        rw [same h2]
      · rfl

theorem run_lengths (g : Room) : ∀ (cmds : List ListCmd) {m : ListMem} {s : Lanes} {φ : List (Nat × Nat)}
    {ls : List (List Nat)}, Tracks m s φ → ls.map List.length = s.lanes.map Lane.len →
    ((m.run g cmds).map ListMem.contents).map (·.map List.length) = (runLists ls cmds).map (·.map List.length)
  | [], m, s, φ, ls, t, h => by
    simp only [ListMem.run, runLists, Option.map_some, t.lengths, h]
  | c :: cs, m, s, φ, ls, t, h => by
    have hv := execV_lengths h c
    rw [ListMem.run, runLists]
    rcases t.exec g c with ⟨m', s', φ', e, e', t'⟩ | ⟨e, e'⟩
    · rw [e', Option.map_some, Option.map_eq_some_iff] at hv
      obtain ⟨ls', h1, h2⟩ := hv
      rw [e, h1]
      exact run_lengths g cs t' h2
    · rw [e', Option.map_none, Option.map_eq_none_iff] at hv
      rw [e, hv]
      rfl

/-- C60: whatever is shared, every program panics when it does with lists as values, and every list has the right number
of elements. -/
theorem C60_lengths (g : Room) (cmds : List ListCmd) :
    ((ListMem.run g {} cmds).map ListMem.contents).map (·.map List.length)
      = (runLists [] cmds).map (·.map List.length) :=
  run_lengths g cmds Tracks.empty rfl

example (g : Room) : ((ListMem.run g {} [.make [1, 2] 2, .share 0, .share 0, .add 1 3, .addAll 2 1]).map
    ListMem.contents).map (·.map List.length) = some [2, 3, 5] :=
  C60_lengths g _

end Gopoet
