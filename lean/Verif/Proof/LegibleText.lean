import Verif.Spec.Legible
import Verif.Proof.QuoteLemmas
import Verif.Proof.GoTypesLemmas
/-! For C74: source text can be put together and taken apart; types and conversions. -/

namespace Gopoet

/-! ### Strings -/

/-- Text can be cut at an ASCII character. -/
theorem SourceText.cut {a b : GoString} {c : UInt8} (hc : c.toNat < 128) (h : SourceText (a ++ c :: b)) :
    SourceText a ∧ SourceText b := by
  obtain ⟨rs, hrs, he⟩ := h
  induction rs generalizing a with
  | nil => simp at he
  | cons r rs ih =>
    have hr := hrs r (by simp)
    have hrest : ∀ x ∈ rs, isScalar x = true ∧ x ≠ 0 ∧ x ≠ 0xFEFF := fun x hx => hrs x (by simp [hx])
    have one : SourceText (encodeScalar r) := ⟨[r], by simpa using hr, by simp⟩
    rw [List.flatMap_cons, List.append_eq_append_iff] at he
    rcases he with ⟨as, h1, h2⟩ | ⟨as, h1, h2⟩
    · cases as with
      | nil =>
        rw [List.append_nil] at h1
        obtain ⟨h3, h4⟩ := ih hrest (a := []) (by simpa using h2)
        exact ⟨h1 ▸ one, h4⟩
      | cons x as =>
        simp only [List.cons_append, List.cons.injEq] at h2
        obtain ⟨rfl, rfl⟩ := h2
        have hlow : r < 128 := by
          rcases Nat.lt_or_ge r 128 with h | h
          · exact h
          · have := encodeScalar_high hr.1 h c (by rw [h1]; simp)
            omega
        have : a ++ c :: as = [UInt8.ofNat r] := by rw [← h1, encodeScalar, if_pos hlow]
        have hl := congrArg List.length this
        simp at hl
        have ha : a = [] := List.eq_nil_of_length_eq_zero (by omega)
        have has : as = [] := List.eq_nil_of_length_eq_zero (by omega)
        subst ha has
        exact ⟨.nil, ⟨rs, hrest, by simp⟩⟩
    · obtain ⟨h3, h4⟩ := ih hrest h2.symm
      exact ⟨h1 ▸ one.append h3, h4⟩

theorem SourceText.one {c : UInt8} (h0 : 0 < c.toNat) (hc : c.toNat < 128) : SourceText [c] := .ascii (by simp [h0, hc])

theorem SourceText.cons {c : UInt8} {s : GoString} (h0 : 0 < c.toNat) (hc : c.toNat < 128) (hs : SourceText s) :
    SourceText (c :: s) := SourceText.append (.one h0 hc) hs

theorem SourceText.ite {c : Prop} [Decidable c] {s t : GoString} (hs : SourceText s) (ht : SourceText t) :
    SourceText (if c then s else t) := by split <;> assumption

theorem sourceText_splitOn : ∀ {s : GoString}, SourceText s → ∀ l ∈ splitOn newline s, SourceText l := by
  have : ∀ (n : Nat) (s : GoString), s.length ≤ n → SourceText s → ∀ l ∈ splitOn newline s, SourceText l := by
    have key : ∀ (s : GoString), splitOn newline s = [s] ∧ newline ∉ s ∨
        ∃ a b, s = a ++ newline :: b ∧ splitOn newline s = a :: splitOn newline b := by
      intro s
      induction s with
      | nil => exact .inl ⟨rfl, by simp⟩
      | cons c s ih =>
        rw [splitOn]
        by_cases hc : c = newline
        · rw [if_pos hc]
          exact .inr ⟨[], s, by simp [hc], rfl⟩
        · rw [if_neg hc]
          rcases ih with ⟨h1, h2⟩ | ⟨a, b, rfl, h2⟩
          · rw [h1]
            exact .inl ⟨rfl, by simp only [List.mem_cons, not_or]; exact ⟨fun h => hc h.symm, h2⟩⟩
          · rw [h2]
            exact .inr ⟨c :: a, b, by simp, rfl⟩
    intro n
    induction n with
    | zero =>
      intro s hn hs l hl
      rw [List.eq_nil_of_length_eq_zero (Nat.le_zero.1 hn)] at hl
      simp only [splitOn, List.mem_singleton] at hl
      exact hl ▸ .nil
    | succ n ih =>
      intro s hn hs l hl
      rcases key s with ⟨h1, -⟩ | ⟨a, b, rfl, h2⟩
      · rw [h1, List.mem_singleton] at hl
        exact hl ▸ hs
      · obtain ⟨h3, h4⟩ := hs.cut (by decide)
        rw [h2, List.mem_cons] at hl
        rcases hl with rfl | hl
        · exact h3
        · exact ih b (by simp at hn; omega) h4 l hl
  exact fun {s} hs => this s.length s (Nat.le_refl _) hs

theorem SourceText.flatMap {α} {f : α → GoString} : ∀ {l : List α}, (∀ a ∈ l, SourceText (f a)) → SourceText (l.flatMap f)
  | [], _ => .nil
  | a :: l, h => by
    rw [List.flatMap_cons]
    exact (h a (by simp)).append (.flatMap fun b hb => h b (by simp [hb]))

theorem sourceText_writeComment {s : GoString} (h : SourceText s) : SourceText (writeComment s) := by
  rw [writeComment]
  refine .ite (.flatMap fun l hl => ?_) .nil
  exact (SourceText.append (.ascii (by decide)) (sourceText_splitOn h l hl)).append (.ascii (by decide))

theorem sourceText_joinWith {sep : GoString} (hs : SourceText sep) : ∀ {l : List GoString}, (∀ s ∈ l, SourceText s) →
    SourceText (joinWith sep l)
  | [], _ => .nil
  | [p], h => h p (by simp)
  | p :: q :: ps, h => by
    rw [joinWith]
    exact ((h p (by simp)).append hs).append (sourceText_joinWith hs fun s hs => h s (List.mem_cons_of_mem _ hs))

theorem sourceText_decDigits (n : Nat) : SourceText (decDigits n) := by
  have : ∀ f n, SourceText (decDigitsAux f n) := by
    intro f
    induction f with
    | zero => intro n; exact .nil
    | succ f ih =>
      intro n
      rw [decDigitsAux]
      split
      · exact .one (by simp only [UInt8.toNat_ofNat']; omega) (by simp only [UInt8.toNat_ofNat']; omega)
      · exact (ih _).append (.one (by simp only [UInt8.toNat_ofNat']; omega) (by simp only [UInt8.toNat_ofNat']; omega))
  exact this _ _

theorem sourceText_decInt : ∀ (n : Int), SourceText (decInt n)
  | .ofNat n => sourceText_decDigits n
  | .negSucc n => .cons (by decide) (by decide) (sourceText_decDigits _)

theorem sourceText_trimDot {p : GoString} (h : SourceText p) : SourceText (Imports.trimDot p) := by
  rw [Imports.trimDot]
  split
  · rename_i hl
    obtain ⟨q, rfl⟩ := List.getLast?_eq_some_iff.1 hl
    rw [List.dropLast_concat]
    exact (h.cut (b := []) (by decide)).1
  · exact h

theorem sourceText_basicText (k : ReflectKind) : SourceText (basicText k) := by
  cases k <;> first | exact .ascii (by decide) | exact .nil

theorem sourceText_symbolText {s : Symbol} (h : s.Legible) : SourceText (symbolText s) :=
  (SourceText.ite (h.1.append (.ascii (by decide))) .nil).append h.2

theorem sourceText_symbolString {s : Symbol} (h : s.Legible) : SourceText s.string :=
  .ite ((h.1.append (.ascii (by decide))).append h.2) h.2

theorem sourceText_tagText {tbl : Nat → Bool} (htbl : tbl 0xFEFF = false) (s : GoString) : SourceText (tagText tbl s) := by
  rw [tagText]
  split
  · rename_i h
    exact sourceText_backquote h
  · exact sourceText_quote htbl s

theorem sourceText_paramName {b : Bool} {n : GoString} (h : SourceText n) : SourceText (paramName b n) := by
  rw [paramName]
  exact .ite (.ite (h.append (.ascii (by decide))) (.ascii (by decide))) .nil

theorem sourceText_embeds : ∀ (i : Nat) {es : List Symbol}, (∀ s ∈ es, s.Legible) → SourceText (embedsToBuffer i es)
  | _, [], _ => by rw [embedsToBuffer]; exact .nil
  | i, s :: l, h => by
    rw [embedsToBuffer]
    exact ((SourceText.ite (.ascii (by decide)) .nil).append (sourceText_symbolText (h s (by simp)))).append
      (sourceText_embeds (i + 1) fun s hs => h s (by simp [hs]))

/-! ### Results -/

/-- If there is a result then it is as said. -/
def Outcome.Is {α} (R : α → Prop) (o : Outcome α) : Prop := ∀ a, o = .ok a → R a

namespace Outcome.Is
variable {α β : Type} {R : α → Prop} {S : β → Prop}

theorem ok {a : α} (h : R a) : Outcome.Is R (.ok a) := fun _ he => by cases he; exact h
theorem panic : Outcome.Is R .panic := fun _ he => by cases he
theorem hang : Outcome.Is R .hang := fun _ he => by cases he

theorem bind {o : Outcome α} {f : α → Outcome β} (ho : Outcome.Is R o) (hf : ∀ a, R a → Outcome.Is S (f a)) :
    Outcome.Is S (o.bind f) := by
  cases o with
  | ok a => exact hf a (ho a rfl)
  | panic => exact .panic
  | hang => exact .hang

theorem ite {c : Prop} [Decidable c] {x y : Outcome α} (hx : Outcome.Is R x) (hy : Outcome.Is R y) :
    Outcome.Is R (if c then x else y) := by split <;> assumption

theorem deref {m : Ptr → Option α} {p : Ptr} (h : ∀ a, m p = some a → R a) : Outcome.Is R (deref m p) := by
  intro a ha
  unfold Gopoet.deref at ha
  cases hm : m p with
  | none => rw [hm] at ha; cases ha
  | some b => rw [hm] at ha; cases ha; exact h _ hm

end Outcome.Is

/-! ### Types as text -/

variable {tbl : Nat → Bool}

mutual
theorem sourceText_type (htbl : tbl 0xFEFF = false) : ∀ t : TypeName, t.Legible → Outcome.Is SourceText (typeNameToBuffer tbl t)
  | .nil, _ => by rw [typeNameToBuffer]; exact .panic
  | .basic k, _ => by rw [typeNameToBuffer]; exact .ok (sourceText_basicText k)
  | .named s, h => by
    rw [typeNameToBuffer]
    rw [TypeName.Legible] at h
    exact .ok (sourceText_symbolText h)
  | .map e k, h => by
    rw [typeNameToBuffer]
    rw [TypeName.Legible] at h
    exact .bind (sourceText_type htbl k h.2) fun a ha => .bind (sourceText_type htbl e h.1) fun b hb =>
      .ok (((SourceText.append (.ascii (by decide)) ha).append (.ascii (by decide))).append hb)
  | .slice e, h => by
    rw [typeNameToBuffer]
    rw [TypeName.Legible] at h
    exact .bind (sourceText_type htbl e h) fun a ha => .ok (SourceText.append (.ascii (by decide)) ha)
  | .array e n, h => by
    rw [typeNameToBuffer]
    rw [TypeName.Legible] at h
    exact .bind (sourceText_type htbl e h) fun a ha => .ok
      (((SourceText.append (.ascii (by decide)) (sourceText_decInt n)).append (.ascii (by decide))).append ha)
  | .ptr e, h => by
    rw [typeNameToBuffer]
    rw [TypeName.Legible] at h
    exact .bind (sourceText_type htbl e h) fun a ha => .ok (SourceText.append (.ascii (by decide)) ha)
  | .chan e d, h => by
    rw [typeNameToBuffer]
    rw [TypeName.Legible] at h
    exact .bind (sourceText_type htbl e h) fun a ha => .ok
      (((((SourceText.ite (.ascii (by decide)) .nil).append (.ascii (by decide))).append
        (.ite (.ascii (by decide)) .nil)).append (.ascii (by decide))).append ha)
  | .func s, h => by
    rw [typeNameToBuffer]
    rw [TypeName.Legible] at h
    exact .bind (sourceText_signature htbl s h) fun a ha => .ok (SourceText.append (.ascii (by decide)) ha)
  | .struct fs, h => by
    rw [typeNameToBuffer]
    rw [TypeName.Legible] at h
    exact .bind (sourceText_fields htbl 0 fs h) fun a ha => .ok
      ((SourceText.append (.ascii (by decide)) ha).append (.ascii (by decide)))
  | .interface ms es, h => by
    rw [typeNameToBuffer]
    rw [TypeName.Legible] at h
    exact .bind (sourceText_methods htbl 0 ms h.1) fun a ha => .ok
      (((SourceText.append (.ascii (by decide)) (sourceText_embeds 0 h.2)).append ha).append (.ascii (by decide)))
theorem sourceText_fields (htbl : tbl 0xFEFF = false) : ∀ (i : Nat) (fs : List FieldType), LegibleFields fs →
    Outcome.Is SourceText (fieldsToBuffer tbl i fs)
  | _, [], _ => by rw [fieldsToBuffer]; exact .ok .nil
  | i, ⟨name, t, tag⟩ :: l, h => by
    rw [fieldsToBuffer]
    rw [LegibleFields] at h
    exact .bind (sourceText_type htbl t h.2.1) fun a ha => .bind (sourceText_fields htbl (i + 1) l h.2.2) fun b hb => .ok
      (((((SourceText.ite (.ascii (by decide)) .nil).append (.ite (h.1.append (.ascii (by decide))) .nil)).append ha).append
        (.ite (SourceText.append (.ascii (by decide)) (sourceText_tagText htbl tag)) .nil)).append hb)
theorem sourceText_methods (htbl : tbl 0xFEFF = false) : ∀ (i : Nat) (ms : List MethodType), LegibleMethods ms →
    Outcome.Is SourceText (methodsToBuffer tbl i ms)
  | _, [], _ => by rw [methodsToBuffer]; exact .ok .nil
  | i, ⟨name, s⟩ :: l, h => by
    rw [methodsToBuffer]
    rw [LegibleMethods] at h
    exact .bind (sourceText_signature htbl s h.2.1) fun a ha => .bind (sourceText_methods htbl (i + 1) l h.2.2) fun b hb => .ok
      ((((SourceText.ite (.ascii (by decide)) .nil).append h.1).append ha).append hb)
theorem sourceText_signature (htbl : tbl 0xFEFF = false) : ∀ s : Signature, s.Legible →
    Outcome.Is SourceText (signatureToBuffer tbl s)
  | ⟨args, results, v⟩, h => by
    rw [signatureToBuffer]
    rw [Signature.Legible] at h
    exact .bind (sourceText_args htbl _ _ _ _ args h.1) fun a ha => .bind (sourceText_args htbl _ _ _ _ results h.2) fun b hb =>
      .ok (((SourceText.append (.ascii (by decide)) ha).append (.ascii (by decide))).append
        (.ite (((SourceText.append (.ascii (by decide)) (.ite (.ascii (by decide)) .nil)).append hb).append
          (.ite (.ascii (by decide)) .nil)) .nil))
theorem sourceText_args (htbl : tbl 0xFEFF = false) (v nm : Bool) (n : Nat) : ∀ (i : Nat) (l : List ArgType), LegibleArgs l →
    Outcome.Is SourceText (argsToBuffer tbl v nm n i l)
  | _, [], _ => by rw [argsToBuffer]; exact .ok .nil
  | i, ⟨name, t⟩ :: l, h => by
    rw [argsToBuffer]
    rw [LegibleArgs] at h
    refine .bind (R := SourceText) (.ite (.bind (sourceText_elem htbl t h.2.1) fun a ha => .ok ?_) (sourceText_type htbl t h.2.1))
      fun a ha => .bind (sourceText_args htbl v nm n (i + 1) l h.2.2) fun b hb => .ok ?_
    · exact SourceText.append (.ascii (by decide)) ha
    · exact (((SourceText.ite (.ascii (by decide)) .nil).append (sourceText_paramName h.1)).append ha).append hb
theorem sourceText_elem (htbl : tbl 0xFEFF = false) : ∀ t : TypeName, t.Legible → Outcome.Is SourceText (elemToBuffer tbl t)
  | .ptr e, h => by rw [elemToBuffer]; rw [TypeName.Legible] at h; exact sourceText_type htbl e h
  | .slice e, h => by rw [elemToBuffer]; rw [TypeName.Legible] at h; exact sourceText_type htbl e h
  | .array e _, h => by rw [elemToBuffer]; rw [TypeName.Legible] at h; exact sourceText_type htbl e h
  | .map e _, h => by rw [elemToBuffer]; rw [TypeName.Legible] at h; exact sourceText_type htbl e h.1
  | .chan e _, h => by rw [elemToBuffer]; rw [TypeName.Legible] at h; exact sourceText_type htbl e h
  | .nil, _ => by simp only [elemToBuffer]; exact .panic
  | .basic _, _ => by simp only [elemToBuffer]; exact .panic
  | .named _, _ => by simp only [elemToBuffer]; exact .panic
  | .func _, _ => by simp only [elemToBuffer]; exact .panic
  | .struct _, _ => by simp only [elemToBuffer]; exact .panic
  | .interface _ _, _ => by simp only [elemToBuffer]; exact .panic
end

theorem sourceText_typeString (htbl : tbl 0xFEFF = false) (t : TypeName) (h : t.Legible) : Outcome.Is SourceText (t.string tbl) := by
  cases t with
  | nil => exact .panic
  | basic k => exact .ok (sourceText_basicText k)
  | named s =>
    rw [TypeName.Legible] at h
    exact .ok (sourceText_symbolString h)
  | _ => exact sourceText_type htbl _ h

/-! ### Conversions -/

theorem legible_unsafePointer : unsafePointerType.Legible := by
  rw [unsafePointerType, namedType, TypeName.Legible]
  exact ⟨.ascii (by decide), .ascii (by decide)⟩

theorem legible_basicType (k : ReflectKind) : Outcome.Is TypeName.Legible (basicType k) := by
  rw [basicType]
  exact .ite (.ok legible_unsafePointer) (.ite (.ok (by rw [TypeName.Legible]; trivial)) .panic)

theorem legible_pointerType {t : TypeName} (h : t.Legible) : Outcome.Is TypeName.Legible (pointerType t) :=
  .ite .panic (.ok (by rw [TypeName.Legible]; exact h))
theorem legible_sliceType {t : TypeName} (h : t.Legible) : Outcome.Is TypeName.Legible (sliceType t) :=
  .ite .panic (.ok (by rw [TypeName.Legible]; exact h))
theorem legible_arrayType {t : TypeName} (n : Int) (h : t.Legible) : Outcome.Is TypeName.Legible (arrayType t n) :=
  .ite .panic (.ok (by rw [TypeName.Legible]; exact h))
theorem legible_mapType {k e : TypeName} (h : k.Legible) (h1 : e.Legible) : Outcome.Is TypeName.Legible (mapType k e) :=
  .ite .panic (.ok (by rw [TypeName.Legible]; exact ⟨h1, h⟩))
theorem legible_channelType {t : TypeName} (d : ChanDir) (h : t.Legible) : Outcome.Is TypeName.Legible (channelType t d) := by
  rw [channelType]
  exact .ite .panic (.ok (by rw [TypeName.Legible]; exact h))
theorem legible_funcTypeFromSig {s : Signature} (h : s.Legible) : Outcome.Is TypeName.Legible (funcTypeFromSig s) := by
  have hs : (TypeName.func s).Legible := by rw [TypeName.Legible]; exact h
  rw [funcTypeFromSig]
  refine .ite .panic (.ite .panic (.ite ?_ (.ok hs)))
  split
  · exact .panic
  · split
    · exact .ok hs
    · exact .panic

theorem legibleArgs_append : ∀ {l m : List ArgType}, LegibleArgs l → LegibleArgs m → LegibleArgs (l ++ m)
  | [], _, _, h => h
  | ⟨n, t⟩ :: l, m, h1, h2 => by
    rw [LegibleArgs] at h1
    rw [List.cons_append, LegibleArgs]
    exact ⟨h1.1, h1.2.1, legibleArgs_append h1.2.2 h2⟩

theorem legibleArgs_replicate : ∀ n, LegibleArgs (List.replicate n ⟨[], .nil⟩)
  | 0 => by rw [List.replicate, LegibleArgs]; trivial
  | n + 1 => by
    rw [List.replicate, LegibleArgs, TypeName.Legible]
    exact ⟨.nil, trivial, legibleArgs_replicate n⟩

theorem legibleArgs_set : ∀ {l : List ArgType} (i : Nat) {t : TypeName}, LegibleArgs l → t.Legible → LegibleArgs (l.set i ⟨[], t⟩)
  | [], _, _, h, _ => h
  | ⟨n, u⟩ :: l, 0, t, h, ht => by
    rw [LegibleArgs] at h
    rw [List.set, LegibleArgs]
    exact ⟨.nil, ht, h.2.2⟩
  | ⟨n, u⟩ :: l, i + 1, t, h, ht => by
    rw [LegibleArgs] at h
    rw [List.set, LegibleArgs]
    exact ⟨h.1, h.2.1, legibleArgs_set i h.2.2 ht⟩

mutual
theorem legible_ofReflect : ∀ t : RT, t.Legible → Outcome.Is TypeName.Legible (typeNameForReflectType t)
  | .defined k p n, h => by
    rw [typeNameForReflectType]
    rw [RT.Legible] at h
    exact .ite (legible_basicType k) (.ite (.ok (by rw [namedType, TypeName.Legible]; exact ⟨.nil, h⟩)) .panic)
  | .ptr e, h => by
    rw [typeNameForReflectType]; rw [RT.Legible] at h
    exact .bind (legible_ofReflect e h) fun _ => legible_pointerType
  | .slice e, h => by
    rw [typeNameForReflectType]; rw [RT.Legible] at h
    exact .bind (legible_ofReflect e h) fun _ => legible_sliceType
  | .array e n, h => by
    rw [typeNameForReflectType]; rw [RT.Legible] at h
    exact .bind (legible_ofReflect e h) fun _ => legible_arrayType _
  | .chan d e, h => by
    rw [typeNameForReflectType]; rw [RT.Legible] at h
    exact .bind (legible_ofReflect e h) fun _ => legible_channelType _
  | .map _ _, _ => by rw [typeNameForReflectType]; exact .panic
  | .func s, h => by
    rw [typeNameForReflectType]; rw [RT.Legible] at h
    exact .bind (legible_ofReflectSig s h) fun _ => legible_funcTypeFromSig
  | .struct fs, h => by
    rw [typeNameForReflectType]; rw [RT.Legible] at h
    exact .bind (legible_ofReflectFields fs h) fun _ h => .ok (by rw [structType, TypeName.Legible]; exact h)
  | .interface ms, h => by
    rw [typeNameForReflectType]; rw [RT.Legible] at h
    exact .bind (legible_ofReflectMethods ms h) fun _ h => .ok (by rw [interfaceType, TypeName.Legible]; exact ⟨h, by simp⟩)
theorem legible_ofReflectSig : ∀ s : RTSig, s.Legible → Outcome.Is Signature.Legible (signatureFromReflectType s)
  | .mk ins outs v, h => by
    rw [signatureFromReflectType]; rw [RTSig.Legible] at h
    exact .bind (legible_ofReflectArgs ins h.1) fun _ h1 => .bind (legible_storeResults _ _ outs h1 h.2) fun _ h2 =>
      .ok (by rw [Signature.Legible]; exact ⟨h2, legibleArgs_replicate _⟩)
theorem legible_ofReflectArgs : ∀ l : List RT, LegibleRTs l → Outcome.Is LegibleArgs (argsForReflectType l)
  | [], _ => by rw [argsForReflectType]; exact .ok (by rw [LegibleArgs]; trivial)
  | t :: l, h => by
    rw [argsForReflectType]; rw [LegibleRTs] at h
    exact .bind (legible_ofReflect t h.1) fun _ h1 => .bind (legible_ofReflectArgs l h.2) fun _ h2 =>
      .ok (by rw [LegibleArgs]; exact ⟨.nil, h1, h2⟩)
theorem legible_storeResults : ∀ (args : List ArgType) (i : Nat) (l : List RT), LegibleArgs args → LegibleRTs l →
    Outcome.Is LegibleArgs (storeResults args i l)
  | _, _, [], ha, _ => by rw [storeResults]; exact .ok ha
  | args, i, t :: l, ha, h => by
    rw [storeResults]; rw [LegibleRTs] at h
    refine .bind (legible_ofReflect t h.1) fun _ h1 => .bind (R := LegibleArgs) ?_ fun _ h2 =>
      legible_storeResults _ _ l h2 h.2
    rw [setArg]
    exact .ite (.ok (legibleArgs_set i ha h1)) .panic
theorem legible_ofReflectFields : ∀ l : List RTField, LegibleRTFields l → Outcome.Is LegibleFields (fieldsForReflectType l)
  | [], _ => by rw [fieldsForReflectType]; exact .ok (by rw [LegibleFields]; trivial)
  | .mk n _ t tag :: l, h => by
    rw [fieldsForReflectType]; rw [LegibleRTFields] at h
    exact .bind (legible_ofReflect t h.2.1) fun _ h1 => .bind (legible_ofReflectFields l h.2.2) fun _ h2 =>
      .ok (by rw [LegibleFields]; exact ⟨h.1, h1, h2⟩)
theorem legible_ofReflectMethods : ∀ l : List RTMethod, LegibleRTMethods l →
    Outcome.Is LegibleMethods (methodsForReflectType l)
  | [], _ => by rw [methodsForReflectType]; exact .ok (by rw [LegibleMethods]; trivial)
  | .mk n s :: l, h => by
    rw [methodsForReflectType]; rw [LegibleRTMethods] at h
    exact .bind (legible_ofReflectSig s h.2.1) fun _ h1 => .bind (legible_ofReflectMethods l h.2.2) fun _ h2 =>
      .ok (by rw [LegibleMethods]; exact ⟨h.1, h1, h2⟩)
end

theorem legible_packageForGoType {p : Option TypesPackage} (h : ∀ q, p = some q → q.Legible) :
    Outcome.Is (fun q : Package => SourceText q.name) (packageForGoType p) := by
  cases p with
  | none => exact .panic
  | some p => exact .ok (h p rfl)

theorem legible_typesName {n : TypesName} (h : n.Legible) : Outcome.Is Symbol.Legible (symbolForTypesName n) :=
  .bind (legible_packageForGoType h.2) fun _ h1 => .ok ⟨h1, h.1⟩

theorem legible_basicForGoType (k : TypesKind) : Outcome.Is TypeName.Legible (basicForGoType k) := by
  cases k <;> first
    | exact legible_basicType _
    | exact .ok legible_unsafePointer
    | exact .panic

theorem legible_embedsForGoType : ∀ {l : List (Option TypesName)}, (∀ n, some n ∈ l → n.Legible) →
    Outcome.Is (fun es : List Symbol => ∀ s ∈ es, s.Legible) (embedsForGoType l)
  | [], _ => .ok (by simp)
  | none :: _, _ => .panic
  | some n :: l, h => by
    rw [embedsForGoType]
    refine .bind (legible_typesName (h n (by simp))) fun _ h1 => .bind (legible_embedsForGoType fun n hn => h n (by simp [hn]))
      fun _ h2 => .ok ?_
    intro s hs
    rcases List.mem_cons.1 hs with rfl | hs
    · exact h1
    · exact h2 s hs

mutual
theorem legible_ofGoType : ∀ t : GT, t.Legible → Outcome.Is TypeName.Legible (typeNameForGoType t)
  | .named n, h => by
    rw [typeNameForGoType]; rw [GT.Legible] at h
    exact .bind (legible_typesName h) fun _ h => .ok (by rw [namedType, TypeName.Legible]; exact h)
  | .basic k, _ => by rw [typeNameForGoType]; exact legible_basicForGoType k
  | .map k e, h => by
    rw [typeNameForGoType]; rw [GT.Legible] at h
    exact .bind (legible_ofGoType k h.1) fun _ h1 => .bind (legible_ofGoType e h.2) fun _ h2 => legible_mapType h1 h2
  | .slice e, h => by
    rw [typeNameForGoType]; rw [GT.Legible] at h
    exact .bind (legible_ofGoType e h) fun _ => legible_sliceType
  | .array e n, h => by
    rw [typeNameForGoType]; rw [GT.Legible] at h
    exact .bind (legible_ofGoType e h) fun _ => legible_arrayType _
  | .pointer e, h => by
    rw [typeNameForGoType]; rw [GT.Legible] at h
    exact .bind (legible_ofGoType e h) fun _ => legible_pointerType
  | .chan d e, h => by
    rw [GT.Legible] at h
    cases d <;> rw [typeNameForGoType]
    case other => exact .panic
    all_goals exact .bind (legible_ofGoType e h) fun _ => legible_channelType _
  | .signature s, h => by
    rw [typeNameForGoType]; rw [GT.Legible] at h
    exact .bind (legible_ofGoTypeSig s h) fun _ => legible_funcTypeFromSig
  | .struct fs, h => by
    rw [typeNameForGoType]; rw [GT.Legible] at h
    exact .bind (legible_ofGoTypeFields fs h) fun _ h => .ok (by rw [structType, TypeName.Legible]; exact h)
  | .interface es ms, h => by
    rw [typeNameForGoType]; rw [GT.Legible] at h
    exact .bind (legible_embedsForGoType h.1) fun _ h1 => .bind (legible_ofGoTypeMethods ms h.2) fun _ h2 =>
      .ok (by rw [interfaceType, TypeName.Legible]; exact ⟨h2, h1⟩)
  | .other, _ => by rw [typeNameForGoType]; exact .panic
theorem legible_ofGoTypeSig : ∀ s : GTSig, s.Legible → Outcome.Is Signature.Legible (signatureFromGoType s)
  | .mk r ps rs v, h => by
    rw [signatureFromGoType]; rw [GTSig.Legible] at h
    exact .bind (legible_ofGoTypeVars ps h.2.1) fun _ h1 => .bind (legible_ofGoTypeVars rs h.2.2) fun _ h2 =>
      .bind (legible_ofGoTypeRecv r h.1) fun _ h3 => .ok (by rw [Signature.Legible]; exact ⟨legibleArgs_append h3 h1, h2⟩)
theorem legible_ofGoTypeRecv : ∀ r : GTRecv, r.Legible → Outcome.Is LegibleArgs (recvArgForGoType r)
  | .none, _ => by rw [recvArgForGoType]; exact .ok (by rw [LegibleArgs]; trivial)
  | .iface, _ => by rw [recvArgForGoType]; exact .ok (by rw [LegibleArgs]; trivial)
  | .concrete n t, h => by
    rw [recvArgForGoType]; rw [GTRecv.Legible] at h
    exact .bind (legible_ofGoType t h.2) fun _ h1 => .ok (by rw [LegibleArgs, LegibleArgs]; exact ⟨h.1, h1, trivial⟩)
theorem legible_ofGoTypeVars : ∀ l : List GTVar, LegibleGTVars l → Outcome.Is LegibleArgs (argsTypesForGoType l)
  | [], _ => by rw [argsTypesForGoType]; exact .ok (by rw [LegibleArgs]; trivial)
  | .mk n t :: l, h => by
    rw [argsTypesForGoType]; rw [LegibleGTVars] at h
    exact .bind (legible_ofGoType t h.2.1) fun _ h1 => .bind (legible_ofGoTypeVars l h.2.2) fun _ h2 =>
      .ok (by rw [LegibleArgs]; exact ⟨h.1, h1, h2⟩)
theorem legible_ofGoTypeFields : ∀ l : List GTField, LegibleGTFields l → Outcome.Is LegibleFields (fieldsForGoType l)
  | [], _ => by rw [fieldsForGoType]; exact .ok (by rw [LegibleFields]; trivial)
  | .mk n _ t tag :: l, h => by
    rw [fieldsForGoType]; rw [LegibleGTFields] at h
    exact .bind (legible_ofGoType t h.2.1) fun _ h1 => .bind (legible_ofGoTypeFields l h.2.2) fun _ h2 =>
      .ok (by rw [LegibleFields]; exact ⟨.ite h.1 .nil, h1, h2⟩)
theorem legible_ofGoTypeMethods : ∀ l : List GTMethod, LegibleGTMethods l → Outcome.Is LegibleMethods (methodsForGoType l)
  | [], _ => by rw [methodsForGoType]; exact .ok (by rw [LegibleMethods]; trivial)
  | .mk n s :: l, h => by
    rw [methodsForGoType]; rw [LegibleGTMethods] at h
    exact .bind (legible_ofGoTypeSig s h.2.1) fun _ h1 => .bind (legible_ofGoTypeMethods l h.2.2) fun _ h2 =>
      .ok (by rw [LegibleMethods]; exact ⟨h.1, h1, h2⟩)
end

/-- What is in a reference is source text. -/
def SymbolOrMethodRef.Legible : SymbolOrMethodRef → Prop
  | .symbol s => s.Legible
  | .method m => m.type.Legible ∧ SourceText m.method

theorem legible_throughPointer {t : TypeName} (h : t.Legible) : Outcome.Is TypeName.Legible (throughPointer t) := by
  cases t with
  | nil => exact .panic
  | ptr e =>
    rw [TypeName.Legible] at h
    exact .ok h
  | _ => exact .ok h

theorem legible_symbol {t : TypeName} (h : t.Legible) : Outcome.Is Symbol.Legible t.symbol := by
  cases t with
  | nil => exact .panic
  | named s =>
    rw [TypeName.Legible] at h
    exact .ok h
  | _ => exact .ok ⟨.nil, .nil⟩

theorem legible_symbolForGoObject {o : TypesObject} (h : o.Legible) :
    Outcome.Is SymbolOrMethodRef.Legible (symbolForGoObject o) := by
  cases o with
  | func p n r =>
    obtain ⟨h1, h2, h3⟩ := h
    cases r with
    | none => exact .bind (legible_packageForGoType h2) fun _ h4 => .ok ⟨h4, h1⟩
    | some t =>
      exact .bind (legible_ofGoType t (h3 t rfl)) fun _ h4 => .bind (legible_throughPointer h4) fun _ h5 => .bind (legible_symbol h5) fun _ h6 =>
        .ok ⟨h6, h1⟩
  | other p n =>
    obtain ⟨h1, h2⟩ := h
    exact .bind (legible_packageForGoType h2) fun _ h4 => .ok ⟨h4, h1⟩

end Gopoet
