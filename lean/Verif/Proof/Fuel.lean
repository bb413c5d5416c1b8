import Verif.Proof.SettledHeap
/-! The bound on the depth of specs does not matter once it is high enough. -/

namespace Gopoet
open Imports

/-- Where the first returns, the second does the same. -/
def QM.Le {α} (x y : QM α) : Prop := ∀ h i a h' i', x h i = (.ok a, h', i') → y h i = (.ok a, h', i')

theorem QM.Le.refl {α} (x : QM α) : QM.Le x x := fun _ _ _ _ _ hx => hx

theorem QM.Le.bind {α β} {x y : QM α} {f g : α → QM β} (hx : QM.Le x y) (hf : ∀ a, QM.Le (f a) (g a)) :
    QM.Le (QM.bind x f) (QM.bind y g) := by
  intro h i b h' i' hb
  obtain ⟨a, g1, j, h1, h2⟩ := QM.bind_eq_ok hb
  rw [QM.bind_ok (hx _ _ _ _ _ h1)]
  exact hf a _ _ _ _ _ h2

theorem QM.Le.forEach {α} {f g : α → QM Unit} (hf : ∀ a, QM.Le (f a) (g a)) : ∀ l, QM.Le (QM.forEach f l) (QM.forEach g l)
  | [] => .refl _
  | a :: l => by
    rw [QM.forEach, QM.forEach]
    exact .bind (hf a) fun _ => .forEach hf l

theorem QM.Le.hang {α} (x : QM α) : QM.Le QM.hang x := fun _ _ _ _ _ hx => by
  simp [QM.hang] at hx

theorem le_field {s s' : Ptr → QM Unit} (hs : ∀ p, QM.Le (s p) (s' p)) (p : Ptr) :
    QM.Le (qualifyField s p) (qualifyField s' p) := by
  refine .bind (.refl _) fun f => ?_
  split
  · exact .refl _
  · exact .refl _
  · exact hs _

theorem le_spec : ∀ {n m : Nat}, n ≤ m → ∀ p, QM.Le (qualifySpec n p) (qualifySpec m p)
  | 0, _, _, _ => QM.Le.hang _
  | n + 1, 0, h, _ => absurd h (by omega)
  | n + 1, m + 1, h, p => by
    rw [qualifySpec, qualifySpec]
    exact .bind (.refl _) fun t => .bind (.refl _) fun u => .bind (.refl _) fun _ =>
      .bind (.forEach (le_field (le_spec (by omega))) _) fun _ => .refl _

theorem le_typeRef {n m : Nat} (h : n ≤ m) (t : TypeRef) : QM.Le (qualifyTypeRef n t) (qualifyTypeRef m t) := by
  cases t with
  | nil => exact .refl _
  | name t => exact .refl _
  | spec p => exact .bind (le_spec h p) fun _ => .refl _

theorem le_value {n m : Nat} (h : n ≤ m) (p : Ptr) : QM.Le (qualifyValue n p) (qualifyValue m p) :=
  .bind (.refl _) fun _ => .bind (le_typeRef h _) fun _ => .bind (.refl _) fun _ => .refl _

theorem le_fileElem {n m : Nat} (h : n ≤ m) (e : FileElem) : QM.Le (FileElem.qualify n e) (FileElem.qualify m e) := by
  cases e with
  | values p => exact .bind (.refl _) fun _ => .forEach (le_value h) _
  | types p => exact .bind (.refl _) fun _ => .forEach (le_spec h) _
  | func p => exact .refl _

theorem qualifyFile_mono {n m : Nat} (hnm : n ≤ m) {p : Ptr} {h h' : Heap} (hq : qualifyFile n p h = (.ok (), h')) :
    qualifyFile m p h = (.ok (), h') := by
  unfold qualifyFile at hq ⊢
  cases hf : h.files p with
  | none => rw [hf] at hq; cases hq
  | some f =>
    rw [hf] at hq
    dsimp only at hq ⊢
    obtain ⟨o, h1, i1, hr⟩ : ∃ o h1 i1, QM.forEach (FileElem.qualify n) f.elements h f.imports = (o, h1, i1) :=
      ⟨_, _, _, rfl⟩
    rw [hr] at hq
    dsimp only at hq
    obtain ⟨rfl, rfl⟩ := Prod.mk.inj hq
    rw [QM.Le.forEach (le_fileElem hnm) f.elements _ _ _ _ _ hr]

/-! ### Text -/

/-- Where the first returns, the second returns the same. -/
def Outcome.Le {α} (o o' : Outcome α) : Prop := ∀ a, o = .ok a → o' = .ok a

theorem Outcome.Le.refl {α} (o : Outcome α) : o.Le o := fun _ h => h

theorem Outcome.Le.bind {α β : Type} {o o' : Outcome α} {f g : α → Outcome β} (ho : o.Le o') (hf : ∀ a, (f a).Le (g a)) :
    (o >>= f).Le (o' >>= g) := by
  intro b hb
  obtain ⟨a, h1, h2⟩ := bind_eq_ok hb
  rw [ho a h1]
  exact hf a b h2

theorem le_concat {α} {f g : α → Outcome GoString} (hf : ∀ a, (f a).Le (g a)) : ∀ l, (concatText f l).Le (concatText g l)
  | [] => .refl _
  | a :: l => by
    rw [concatText, concatText]
    exact .bind (hf a) fun _ => .bind (le_concat hf l) fun _ => .refl _

theorem le_fieldText {env : Env} {h : Heap} {s s' : TypeSpec → Outcome GoString} (hs : ∀ t, (s t).Le (s' t)) (f : FieldSpec) :
    (f.text env h s).Le (f.text env h s') := by
  rw [FieldSpec.text, FieldSpec.text]
  refine .bind ?_ fun _ => .refl _
  cases f.type with
  | nil => exact .refl _
  | name t => exact .refl _
  | spec p =>
    rw [fieldTypeText, fieldTypeText]
    refine .bind (.refl _) fun t => ?_
    split
    · exact hs t
    · exact .refl _

theorem le_underlying {env : Env} {h : Heap} : ∀ {n m : Nat}, n ≤ m → ∀ t,
    (writeUnderlying env h n t).Le (writeUnderlying env h m t)
  | 0, _, _, _ => fun _ hx => by cases hx
  | n + 1, 0, h, _ => absurd h (by omega)
  | n + 1, m + 1, hnm, t => by
    rw [writeUnderlying, writeUnderlying]
    cases t.underlying with
    | struct fs =>
      exact .bind (le_concat (fun q => .bind (.refl _) fun f => le_fieldText (le_underlying (by omega)) f) _) fun _ => .refl _
    | _ => exact .refl _

theorem le_typeText {env : Env} {h : Heap} {n m : Nat} (hnm : n ≤ m) (t : TypeSpec) (b : Bool) :
    (t.text env h n b).Le (t.text env h m b) := .bind (le_underlying hnm t) fun _ => .refl _

theorem le_elemText {env : Env} {h : Heap} {n m : Nat} (hnm : n ≤ m) (e : FileElem) :
    (e.text env h n).Le (e.text env h m) := by
  cases e with
  | types p =>
    refine .bind (.refl _) fun d => ?_
    unfold TypeDecl.text
    split
    · exact .bind (le_concat (fun q => .bind (.refl _) fun t => le_typeText hnm t _) _) fun _ => .refl _
    · cases d.types with
      | nil => exact .refl _
      | cons q l => exact .bind (.refl _) fun t => .bind (le_typeText hnm t _) fun _ => .refl _
  | _ => exact .refl _

theorem le_fileText {env : Env} {h : Heap} {n m : Nat} (hnm : n ≤ m) (f : GoFile) :
    (f.text env h n).Le (f.text env h m) :=
  .bind (le_concat (fun e => .bind (le_elemText hnm e) fun _ => .refl _) _) fun _ => .refl _

theorem renderFile_mono {env : Env} {n m : Nat} (hnm : n ≤ m) {p : Ptr} {h h' : Heap} {text : GoString}
    (hr : renderFile env n p h = (.ok text, h')) : renderFile env m p h = (.ok text, h') := by
  unfold renderFile at hr ⊢
  obtain ⟨o, h1, hq⟩ : ∃ o h1, qualifyFile n p h = (o, h1) := ⟨_, _, rfl⟩
  rw [hq] at hr
  cases o with
  | panic => cases hr
  | hang => cases hr
  | ok u =>
    obtain ⟨h2, rfl⟩ := Prod.mk.inj hr
    rw [qualifyFile_mono hnm hq]
    exact Prod.ext (Outcome.Le.bind (.refl (deref h1.files p)) (fun f => le_fileText hnm f) _ h2) rfl

end Gopoet
