import Verif.Proof.EffectLemmas
import Verif.Proof.TruthLemmas
import Verif.Props.Templates
import Verif.Spec.Order
/-! Two runs of the qualification pass whose states differ in the order of map entries only. -/

namespace Gopoet
open Imports

/-! ### Operations on Imports -/

theorem SameTables.refl (i : Imports) : SameTables i i := ⟨rfl, fun _ => rfl, fun _ => rfl⟩

theorem FirstFree.alike {m m1 : GoMap GoString GoString} (h : ∀ n, m1.get n = m.get n) {base q : GoString}
    (hq : FirstFree m base q) : FirstFree m1 base q := by
  obtain ⟨n, h1, h2, h3⟩ := hq
  exact ⟨n, h1, by rw [h]; exact h2, fun j hj => by rw [h]; exact h3 j hj⟩

/-- `x` gives the same result for Imports with the same tables, and leaves the same tables. -/
def Alike {α} (x : IM α) : Prop :=
  ∀ i i1, SameTables i i1 → (x i1).1 = (x i).1 ∧ SameTables (x i).2 (x i1).2

namespace Alike
variable {α β : Type}

theorem pure (a : α) : Alike (pure a : IM α) := fun _ _ h => ⟨rfl, h⟩
theorem panic : Alike (IM.panic : IM α) := fun _ _ h => ⟨rfl, h⟩
theorem lift (o : Outcome α) : Alike (IM.lift o) := fun _ _ h => ⟨rfl, h⟩

theorem ite {c : Prop} [Decidable c] {x y : IM α} (hx : Alike x) (hy : Alike y) :
    Alike (if c then x else y) := by split <;> assumption

theorem bind {x : IM α} {f : α → IM β} (hx : Alike x) (hf : ∀ a, Alike (f a)) : Alike (x >>= f) := by
  intro i i1 h
  obtain ⟨h1, h2⟩ := hx i i1 h
  simp only [IM.bind_apply]
  rcases he : x i with ⟨_ | _ | _, j⟩ <;> rcases he1 : x i1 with ⟨_ | _ | _, j1⟩ <;>
    rw [he, he1] at h1 h2 <;> simp only [Outcome.ok.injEq, reduceCtorEq] at h1
  · subst h1
    exact hf _ _ _ h2
  · exact ⟨rfl, h2⟩
  · exact ⟨rfl, h2⟩

end Alike

theorem alike_prefixForPackage (p n : GoString) (r : Bool) : Alike (prefixForPackage p n r) := by
  intro i i1 h
  by_cases ho : p = i.pkgPath
  · rw [prefixForPackage_own ho, prefixForPackage_own (ho.trans h.own.symm)]
    exact ⟨rfl, h⟩
  · have ho1 : p ≠ i1.pkgPath := fun he => ho (he.trans h.own)
    cases hg : i.importsByPath.get p with
    | some d =>
      rw [prefixForPackage_known ho hg, prefixForPackage_known ho1 ((h.byPath p).trans hg)]
      exact ⟨rfl, h⟩
    | none =>
      have hg1 := (h.byPath p).trans hg
      cases r with
      | false =>
        rw [prefixForPackage_unknown ho hg, prefixForPackage_unknown ho1 hg1]
        exact ⟨rfl, h⟩
      | true =>
        obtain ⟨q, h1, h2⟩ := prefixForPackage_new (n := n) ho hg
        obtain ⟨q1, h3, h4⟩ := prefixForPackage_new (n := n) ho1 hg1
        obtain rfl := (h1.alike h.byName).unique h3
        rw [h2, h4]
        refine ⟨rfl, h.own, fun x => ?_, fun x => ?_⟩
        · simp only [Imports.add, GoMap.get_set, h.byPath]
        · simp only [Imports.add, GoMap.get_set, h.byName]

theorem alike_registerPackage (p : Package) : Alike (registerPackage p) :=
  .bind (alike_prefixForPackage _ _ _) fun _ => .pure _

theorem alike_qualify (s : Symbol) (r : Bool) : Alike (qualify s r) := by
  unfold qualify
  exact .ite (.pure _) (.bind (alike_prefixForPackage _ _ _) fun _ => .ite (.pure _) (.pure _))

theorem alike_qualifySymbols (r : Bool) : ∀ l, Alike (qualifySymbols r l)
  | [] => .pure _
  | s :: l => by
    rw [qualifySymbols]
    exact .bind (alike_qualify s r) fun _ => .bind (alike_qualifySymbols r l) fun _ => .pure _

mutual
theorem alike_qualifyType (r : Bool) : ∀ t, Alike (qualifyType r t)
  | .nil => by rw [qualifyType]; exact .panic
  | .basic k => by rw [qualifyType]; exact .pure _
  | .named s => by
    rw [qualifyType]
    exact .bind (alike_qualify s r) fun _ => .ite (.pure _) (.pure _)
  | .ptr e => by
    rw [qualifyType]
    exact .bind (alike_qualifyType r e) fun _ => .ite (.bind (.lift _) fun _ => .pure _) (.pure _)
  | .slice e => by
    rw [qualifyType]
    exact .bind (alike_qualifyType r e) fun _ => .ite (.bind (.lift _) fun _ => .pure _) (.pure _)
  | .array e n => by
    rw [qualifyType]
    exact .bind (alike_qualifyType r e) fun _ => .ite (.bind (.lift _) fun _ => .pure _) (.pure _)
  | .map e k => by
    rw [qualifyType]
    exact .bind (alike_qualifyType r k) fun _ => .bind (alike_qualifyType r e) fun _ =>
      .ite (.bind (.lift _) fun _ => .pure _) (.pure _)
  | .chan e d => by
    rw [qualifyType]
    exact .bind (alike_qualifyType r e) fun _ => .ite (.bind (.lift _) fun _ => .pure _) (.pure _)
  | .func s => by
    rw [qualifyType]
    exact .bind (alike_qualifySignature r s) fun _ => .ite (.bind (.lift _) fun _ => .pure _) (.pure _)
  | .struct fs => by
    rw [qualifyType]
    exact .bind (alike_qualifyFields r fs) fun _ => .ite (.pure _) (.pure _)
  | .interface ms es => by
    rw [qualifyType]
    exact .bind (alike_qualifySymbols r es) fun _ => .bind (alike_qualifyMethods r ms) fun _ =>
      .ite (.pure _) (.pure _)
theorem alike_qualifySignature (r : Bool) : ∀ s : Signature, Alike (qualifySignature r s)
  | ⟨args, results, v⟩ => by
    rw [qualifySignature]
    exact .bind (alike_qualifyArgs r args) fun _ => .bind (alike_qualifyArgs r results) fun _ =>
      .ite (.pure _) (.pure _)
theorem alike_qualifyArgs (r : Bool) : ∀ l, Alike (qualifyArgs r l)
  | [] => by rw [qualifyArgs]; exact .pure _
  | ⟨n, t⟩ :: l => by
    rw [qualifyArgs]
    exact .bind (alike_qualifyType r t) fun _ => .bind (alike_qualifyArgs r l) fun _ => .pure _
theorem alike_qualifyFields (r : Bool) : ∀ l, Alike (qualifyFields r l)
  | [] => by rw [qualifyFields]; exact .pure _
  | ⟨n, t, g⟩ :: l => by
    rw [qualifyFields]
    exact .bind (alike_qualifyType r t) fun _ => .bind (alike_qualifyFields r l) fun _ => .pure _
theorem alike_qualifyMethods (r : Bool) : ∀ l, Alike (qualifyMethods r l)
  | [] => by rw [qualifyMethods]; exact .pure _
  | ⟨n, s⟩ :: l => by
    rw [qualifyMethods]
    exact .bind (alike_qualifySignature r s) fun _ => .bind (alike_qualifyMethods r l) fun _ => .pure _
end

theorem alike_ensureImported (s : Symbol) : Alike (ensureImported s) := alike_qualify s true
theorem alike_ensureTypeImported (t : TypeName) : Alike (ensureTypeImported t) :=
  .bind (alike_qualifyType true t) fun _ => .pure _
theorem alike_ensureAllTypesImported (s : Signature) : Alike (ensureAllTypesImported s) :=
  .bind (alike_qualifySignature true s) fun _ => .pure _

theorem alike_qualifySymOrRef (o : Arg) (s : SymbolOrMethodRef) : Alike (qualifySymOrRef o s) := by
  cases s with
  | symbol s => exact .bind (alike_ensureImported s) fun _ => .pure _
  | method m => exact .bind (alike_ensureImported m.type) fun _ => .ite (.pure _) (.pure _)

theorem alike_qualifyArg (h : Heap) (a : Arg) : Alike (qualifyArg h a) := by
  cases a <;> simp only [qualifyArg]
  case package a => exact .bind (alike_registerPackage a) fun _ => .ite (.pure _) (.pure _)
  case packagePtr a => exact .bind (alike_registerPackage a) fun _ => .ite (.pure _) (.pure _)
  case symbol s => exact .bind (alike_ensureImported s) fun _ => .pure _
  case symbolPtr s => exact .bind (alike_ensureImported s) fun _ => .pure _
  case mref m => exact alike_qualifySymOrRef _ _
  case mrefPtr m => exact alike_qualifySymOrRef _ _
  case sig s => exact .bind (alike_ensureAllTypesImported s) fun _ => .pure _
  case sigPtr s => exact .bind (alike_ensureAllTypesImported s) fun _ => .pure _
  case typeName t => exact .bind (alike_ensureTypeImported t) fun _ => .pure _
  case value p => exact .bind (.lift _) fun _ => alike_qualifySymOrRef _ _
  case typeSpec p => exact .bind (.lift _) fun _ => alike_qualifySymOrRef _ _
  case ifaceMethod p => exact .bind (.lift _) fun _ => alike_qualifySymOrRef _ _
  case func p => exact .bind (.lift _) fun _ => alike_qualifySymOrRef _ _
  case reflectType t _ => exact .bind (.lift _) fun _ => .bind (alike_ensureTypeImported _) fun _ => .pure _
  case goType t _ => exact .bind (.lift _) fun _ => .bind (alike_ensureTypeImported _) fun _ => .pure _
  case goObject o _ => exact .bind (.lift _) fun _ => alike_qualifySymOrRef _ _
  case goPackage g _ => exact .bind (.lift _) fun _ => .bind (alike_registerPackage _) fun _ => .pure _
  all_goals exact .pure _

theorem alike_qualifyArgList (h : Heap) : ∀ (l : List Arg) (i i1 : Imports), SameTables i i1 →
    (qualifyArgList h l i1).1 = (qualifyArgList h l i).1 ∧
    (qualifyArgList h l i1).2.1 = (qualifyArgList h l i).2.1 ∧
    SameTables (qualifyArgList h l i).2.2 (qualifyArgList h l i1).2.2
  | [], _, _, hs => ⟨rfl, rfl, hs⟩
  | a :: l, i, i1, hs => by
    obtain ⟨h1, h2⟩ := alike_qualifyArg h a i i1 hs
    simp only [qualifyArgList]
    rcases he : qualifyArg h a i with ⟨_ | _ | _, j⟩ <;> rcases he1 : qualifyArg h a i1 with ⟨_ | _ | _, j1⟩ <;>
      rw [he, he1] at h1 h2 <;> simp only [Outcome.ok.injEq, reduceCtorEq] at h1
    · subst h1
      obtain ⟨h3, h4, h5⟩ := alike_qualifyArgList h l _ _ h2
      exact ⟨h3, by simp only [h4], h5⟩
    · exact ⟨rfl, rfl, h2⟩
    · exact ⟨rfl, rfl, h2⟩

/-! ### Registering the same packages in two orders -/

theorem SameTables.of_inv {i i1 : Imports} (hi : Inv i) (hi1 : Inv i1) (ho : i1.pkgPath = i.pkgPath)
    (hp : ∀ p, i1.importsByPath.get p = i.importsByPath.get p) : SameTables i i1 := by
  refine ⟨ho, hp, fun n => ?_⟩
  cases hn : i.pathsByName.get n with
  | none =>
    cases hn1 : i1.pathsByName.get n with
    | none => rfl
    | some p =>
      obtain ⟨d, h1, h2⟩ := hi1.toPath _ _ hn1
      rw [hp] at h1
      have := hi.toName _ _ h1
      rw [h2, hn] at this
      simp at this
  | some p =>
    obtain ⟨d, h1, rfl⟩ := hi.toPath _ _ hn
    exact hi1.toName _ _ ((hp p).trans h1)

/-- The package is neither the own one nor registered. -/
def IsNew (i : Imports) (k : Package) : Prop := k.importPath ≠ i.pkgPath ∧ i.importsByPath.get k.importPath = none

/-- The new packages among these get their own names. -/
def NoClash (i : Imports) (l : List Package) : Prop := ∀ k ∈ l, IsNew i k → i.pathsByName.get (baseName k) = none ∧
  ∀ k' ∈ l, IsNew i k' → (k.importPath = k'.importPath → k = k') ∧ (baseName k = baseName k' → k.importPath = k'.importPath)

theorem NoClash.alike {i i1 : Imports} {l l1 : List Package} (h : NoClash i l) (hs : SameTables i i1) (hp : l.Perm l1) :
    NoClash i1 l1 := by
  have hn : ∀ k, IsNew i1 k → IsNew i k := by
    rintro k ⟨h1, h2⟩
    exact ⟨fun he => h1 (he.trans hs.own.symm), (hs.byPath _).symm.trans h2⟩
  intro k hk hknew
  obtain ⟨h1, h2⟩ := h k (hp.mem_iff.2 hk) (hn k hknew)
  exact ⟨(hs.byName _).trans h1, fun k' hk' hnew' => h2 k' (hp.mem_iff.2 hk') (hn k' hnew')⟩

theorem after_registerAll (i : Imports) (l : List Package) :
    Evolves (fun _ => True) i (i.after (registerAll l)) :=
  (evolves_after _ _).mono fun _ _ => trivial

theorem registerAll_table_from {i : Imports} (inv : Inv i) : ∀ (l : List Package), NoClash i l →
    ∀ p, (i.after (registerAll l)).importsByPath.get p =
      match i.importsByPath.get p with
      | some d => some d
      | none => if p = i.pkgPath then none else
        match l.find? (fun k => decide (k.importPath = p)) with
        | none => none
        | some k => some ⟨baseName k, decide (baseName k ≠ k.name)⟩ := by
  intro l
  induction l using List.reverseRec with
  | nil =>
    intro _ p
    cases h : i.importsByPath.get p <;> simp [registerAll, Imports.after, h]
  | append_singleton l k ih =>
    intro hcf p
    have ih := ih fun a ha hn => ⟨(hcf a (by simp [ha]) hn).1, fun b hb => (hcf a (by simp [ha]) hn).2 b (by simp [hb])⟩
    have hstate : i.after (registerAll (l ++ [k])) = (registerImportForPackage k (i.after (registerAll l))).2 := by
      simp [registerAll, Imports.after, Call.exec]
    rw [hstate]
    have hev := after_registerAll i l
    have hown := hev.ext.own
    have hinv := hev.inv inv
    generalize i.after (registerAll l) = j at *
    rw [registerImportForPackage, registerImport, List.find?_append]
    by_cases ho : k.importPath = j.pkgPath
    · rw [prefixForPackage_own ho]
      dsimp only
      rw [ih p]
      cases hi : i.importsByPath.get p with
      | some d => rfl
      | none =>
        dsimp only
        by_cases hpo : p = i.pkgPath
        · rw [if_pos hpo, if_pos hpo]
        · rw [if_neg hpo, if_neg hpo]
          have hp : ¬ k.importPath = p := fun he => hpo (he.symm.trans (ho.trans hown))
          cases hf : l.find? (fun x => decide (x.importPath = p)) with
          | some x => simp
          | none => simp [hp]
    · have hko : k.importPath ≠ i.pkgPath := by rw [← hown]; exact ho
      cases hg : j.importsByPath.get k.importPath with
      | some d =>
        rw [prefixForPackage_known ho hg]
        dsimp only
        rw [ih p]
        rw [ih k.importPath] at hg
        cases hi : i.importsByPath.get p with
        | some d => rfl
        | none =>
          dsimp only
          by_cases hpo : p = i.pkgPath
          · rw [if_pos hpo, if_pos hpo]
          · rw [if_neg hpo, if_neg hpo]
            cases hf : l.find? (fun x => decide (x.importPath = p)) with
            | some x => simp
            | none =>
              by_cases hp : k.importPath = p
              · rw [hp, hi] at hg; simp [hf, hpo] at hg
              · simp [hp]
      | none =>
        have hnew : IsNew i k := by
          refine ⟨hko, ?_⟩
          cases hi : i.importsByPath.get k.importPath with
          | none => rfl
          | some d => rw [hev.ext.keeps _ _ hi] at hg; simp at hg
        obtain ⟨q, hff, hq⟩ := prefixForPackage_new (n := k.name) ho hg
        rw [hq]
        have hbase : q = baseName k := by
          refine hff.unique ⟨0, rfl, ?_, fun j hj => absurd hj (Nat.not_lt_zero _)⟩
          cases hn : j.pathsByName.get (baseName k) with
          | none => rfl
          | some p' =>
            exfalso
            obtain ⟨d, hd, hdn⟩ := hinv.toPath _ _ hn
            rw [ih p'] at hd
            cases hi : i.importsByPath.get p' with
            | some d' =>
              rw [hi] at hd
              simp only [Option.some.injEq] at hd
              subst hd
              have := inv.toName _ _ hi
              rw [hdn, (hcf k (by simp) hnew).1] at this
              simp at this
            | none =>
              rw [hi] at hd
              dsimp only at hd
              by_cases hpo : p' = i.pkgPath
              · rw [if_pos hpo] at hd; simp at hd
              · rw [if_neg hpo] at hd
                cases hf : l.find? (fun x => decide (x.importPath = p')) with
                | none => rw [hf] at hd; simp at hd
                | some x =>
                  rw [hf] at hd
                  simp only [Option.some.injEq] at hd
                  subst hd
                  have hx := List.mem_of_find?_eq_some hf
                  have hxp := List.find?_some hf
                  simp only [decide_eq_true_eq] at hxp
                  have := ((hcf x (by simp [hx]) ⟨by rw [hxp]; exact hpo, by rw [hxp]; exact hi⟩).2 k (by simp) hnew).2 hdn
                  rw [ih k.importPath, ← this, hxp, hi] at hg
                  dsimp only at hg
                  rw [if_neg hpo, hf] at hg
                  simp at hg
        subst hbase
        simp only [Imports.add, GoMap.get_set]
        by_cases hp : p = k.importPath
        · subst hp
          simp only [if_true]
          rw [hnew.2]
          dsimp only
          rw [if_neg hko]
          have hf : l.find? (fun x => decide (x.importPath = k.importPath)) = none := by
            rw [ih k.importPath, hnew.2] at hg
            dsimp only at hg
            rw [if_neg hko] at hg
            cases hf : l.find? (fun x => decide (x.importPath = k.importPath)) with
            | none => rfl
            | some x => rw [hf] at hg; simp at hg
          simp [hf]
        · have hp' : ¬ k.importPath = p := fun h => hp h.symm
          simp only [hp, if_false, ih p]
          cases hi : i.importsByPath.get p with
          | some d => rfl
          | none => cases hf : l.find? (fun x => decide (x.importPath = p)) <;> simp [hp']

theorem find_perm_new {i : Imports} {l l' : List Package} (hperm : l.Perm l') (hcf : NoClash i l) {p : GoString}
    (hp : p ≠ i.pkgPath) (hg : i.importsByPath.get p = none) :
    l.find? (fun k => decide (k.importPath = p)) = l'.find? (fun k => decide (k.importPath = p)) := by
  cases hf : l.find? (fun k => decide (k.importPath = p)) with
  | none =>
    symm
    rw [List.find?_eq_none] at hf ⊢
    exact fun x hx => hf x (hperm.mem_iff.2 hx)
  | some x =>
    have hx := List.mem_of_find?_eq_some hf
    have hxp := List.find?_some hf
    simp only [decide_eq_true_eq] at hxp
    cases hf' : l'.find? (fun k => decide (k.importPath = p)) with
    | none =>
      rw [List.find?_eq_none] at hf'
      exact absurd (by simpa using hxp) (hf' x (hperm.mem_iff.1 hx))
    | some y =>
      have hy := List.mem_of_find?_eq_some hf'
      have hyp := List.find?_some hf'
      simp only [decide_eq_true_eq] at hyp
      have := ((hcf x hx ⟨by rw [hxp]; exact hp, by rw [hxp]; exact hg⟩).2 y (hperm.mem_iff.2 hy)
        ⟨by rw [hyp]; exact hp, by rw [hyp]; exact hg⟩).1 (hxp.trans hyp.symm)
      rw [this]

theorem sameTables_registerAll {i i1 : Imports} (hi : Inv i) (hi1 : Inv i1) (hs : SameTables i i1)
    {l l1 : List Package} (hp : l.Perm l1) (hn : NoClash i l) :
    SameTables (i.after (registerAll l)) (i1.after (registerAll l1)) := by
  have e := after_registerAll i l
  have e1 := after_registerAll i1 l1
  refine .of_inv (e.inv hi) (e1.inv hi1) (e1.ext.own.trans (hs.own.trans e.ext.own.symm)) fun p => ?_
  rw [registerAll_table_from hi l hn, registerAll_table_from hi1 l1 (hn.alike hs hp), hs.byPath, hs.own]
  cases hg : i.importsByPath.get p with
  | some d => rfl
  | none =>
    dsimp only
    by_cases ho : p = i.pkgPath
    · rw [if_pos ho, if_pos ho]
    · rw [if_neg ho, if_neg ho, find_perm_new hp hn ho hg]

theorem SameTables.qualifierOf {i i1 : Imports} (h : SameTables i i1) : i1.qualifierOf = i.qualifierOf := by
  funext p
  simp only [Imports.qualifierOf, h.own, h.byPath]

theorem registerAll_known (i : Imports) : ∀ (l : List Package), ∀ k ∈ l,
    k.importPath = i.pkgPath ∨ (i.after (registerAll l)).importsByPath.get k.importPath ≠ none := by
  intro l
  induction l using List.reverseRec with
  | nil => simp
  | append_singleton l x ih =>
    have hstate : i.after (registerAll (l ++ [x])) = (registerImportForPackage x (i.after (registerAll l))).2 := by
      simp [registerAll, Imports.after, Call.exec]
    have hrun := runs_prefixForPackage x.importPath x.name true (i.after (registerAll l))
    intro k hk
    rw [hstate]
    rw [List.mem_append, List.mem_singleton] at hk
    rcases hk with hk | rfl
    · refine (ih k hk).imp id fun hne => ?_
      cases hg : (i.after (registerAll l)).importsByPath.get k.importPath with
      | none => exact absurd hg hne
      | some d =>
        have := hrun.ext.keeps _ _ hg
        rw [registerImportForPackage, registerImport, this]
        simp
    · rw [registerImportForPackage, registerImport]
      have hown := (after_registerAll i l).ext.own
      generalize i.after (registerAll l) = j at *
      by_cases ho : k.importPath = j.pkgPath
      · exact .inl (ho.trans hown)
      · right
        cases hg : j.importsByPath.get k.importPath with
        | some d => rw [prefixForPackage_known ho hg, hg]; simp
        | none =>
          obtain ⟨q, _, hq⟩ := prefixForPackage_new (n := k.name) ho hg
          rw [hq]
          simp [Imports.add]

end Gopoet
