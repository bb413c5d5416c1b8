import Verif.Props.Docs
import Verif.Proof.LegibleText
import Verif.Spec.DeclSyntax
/-! For C76: types with identifiers as names are written on one line. -/

namespace Gopoet

/-- The text does not have an end of line in it. -/
def OneLine (s : GoString) : Prop := newline ∉ s

namespace OneLine

theorem nil : OneLine [] := by simp [OneLine]

theorem append {a b : GoString} (ha : OneLine a) (hb : OneLine b) : OneLine (a ++ b) := by
  rw [OneLine, List.mem_append, not_or]
  exact ⟨ha, hb⟩

theorem lit {a : GoString} (h : newline ∉ a) : OneLine a := h

theorem ite {c : Prop} [Decidable c] {s t : GoString} (hs : OneLine s) (ht : OneLine t) :
    OneLine (if c then s else t) := by split <;> assumption

theorem ident {n : GoString} (hn : isIdent n = true) : OneLine n := by
  intro h
  simp only [isIdent, Bool.and_eq_true] at hn
  have := List.all_eq_true.1 hn.1.2 _ h
  exact absurd this (by decide)

theorem optIdent {n : GoString} (hn : (n == [] || isIdent n) = true) : OneLine n := by
  rcases Bool.or_eq_true _ _ ▸ hn with h | h
  · rw [beq_iff_eq.1 h]; exact .nil
  · exact .ident h

theorem decDigits (n : Nat) : OneLine (decDigits n) := by
  have : ∀ f n, OneLine (decDigitsAux f n) := by
    intro f
    induction f with
    | zero => intro n; exact .nil
    | succ f ih =>
      intro n
      have digit : ∀ k, k < 10 → OneLine [UInt8.ofNat (48 + k)] := by
        intro k hk h
        have := congrArg UInt8.toNat (List.mem_singleton.1 h)
        simp only [UInt8.toNat_ofNat'] at this
        have h10 : newline.toNat = 10 := by decide
        omega
      rw [decDigitsAux]
      split
      · exact digit _ (by omega)
      · exact (ih _).append (digit _ (by omega))
  exact this _ _

theorem decInt : ∀ (n : Int), OneLine (decInt n)
  | .ofNat n => OneLine.decDigits n
  | .negSucc n => OneLine.append (a := [45]) (.lit (by decide)) (OneLine.decDigits _)

theorem tagText (tbl : Nat → Bool) (s : GoString) : OneLine (tagText tbl s) := by
  rw [Gopoet.tagText]
  split
  · rename_i h
    refine OneLine.append (OneLine.append (.lit (by decide)) fun hm => ?_) (.lit (by decide))
    exact ((canBackquoteLoop_bytes s.length s (Nat.le_refl _) h).1 _ hm).2.2 rfl
  · exact quote_noNl tbl s

theorem fieldTagText (tbl : Nat → Bool) (s : GoString) : OneLine (fieldTagText tbl s) :=
  .ite (OneLine.append (.lit (by decide)) (OneLine.tagText tbl s)) .nil

theorem basicText (k : ReflectKind) : OneLine (basicText k) := by
  cases k <;> first | exact .lit (by decide) | exact .nil

theorem symbolText {s : Symbol} (h : s.wellNamed = true) : OneLine (symbolText s) := by
  simp only [Symbol.wellNamed, Bool.and_eq_true] at h
  exact (OneLine.ite ((OneLine.optIdent h.1).append (.lit (by decide))) .nil).append (.ident h.2)

theorem symbolString {s : Symbol} (h : s.wellNamed = true) : OneLine s.string := by
  simp only [Symbol.wellNamed, Bool.and_eq_true] at h
  exact .ite (((OneLine.optIdent h.1).append (.lit (by decide))).append (.ident h.2)) (.ident h.2)

theorem paramName {b : Bool} {n : GoString} (h : (n == [] || isIdent n) = true) : OneLine (paramName b n) := by
  rw [Gopoet.paramName]
  exact .ite (.ite ((OneLine.optIdent h).append (.lit (by decide))) (.lit (by decide))) .nil

theorem embeds : ∀ (i : Nat) {es : List Symbol}, es.all Symbol.wellNamed = true → OneLine (embedsToBuffer i es)
  | _, [], _ => by rw [embedsToBuffer]; exact .nil
  | i, s :: l, h => by
    rw [embedsToBuffer]
    rw [List.all_cons, Bool.and_eq_true] at h
    exact ((OneLine.ite (.lit (by decide)) .nil).append (symbolText h.1)).append (embeds (i + 1) h.2)

end OneLine

variable {tbl : Nat → Bool}

mutual
theorem oneLine_type : ∀ t : TypeName, t.wellNamed = true → Outcome.Is OneLine (typeNameToBuffer tbl t)
  | .nil, _ => by rw [typeNameToBuffer]; exact .panic
  | .basic k, _ => by rw [typeNameToBuffer]; exact .ok (OneLine.basicText k)
  | .named s, h => by
    rw [typeNameToBuffer]
    rw [TypeName.wellNamed] at h
    exact .ok (OneLine.symbolText h)
  | .map e k, h => by
    rw [typeNameToBuffer]
    rw [TypeName.wellNamed, Bool.and_eq_true] at h
    exact .bind (oneLine_type k h.2) fun a ha => .bind (oneLine_type e h.1) fun b hb =>
      .ok (((OneLine.append (.lit (by decide)) ha).append (.lit (by decide))).append hb)
  | .slice e, h => by
    rw [typeNameToBuffer]
    rw [TypeName.wellNamed] at h
    exact .bind (oneLine_type e h) fun a ha => .ok (OneLine.append (.lit (by decide)) ha)
  | .array e n, h => by
    rw [typeNameToBuffer]
    rw [TypeName.wellNamed] at h
    exact .bind (oneLine_type e h) fun a ha => .ok
      (((OneLine.append (.lit (by decide)) (OneLine.decInt n)).append (.lit (by decide))).append ha)
  | .ptr e, h => by
    rw [typeNameToBuffer]
    rw [TypeName.wellNamed] at h
    exact .bind (oneLine_type e h) fun a ha => .ok (OneLine.append (.lit (by decide)) ha)
  | .chan e d, h => by
    rw [typeNameToBuffer]
    rw [TypeName.wellNamed] at h
    exact .bind (oneLine_type e h) fun a ha => .ok
      (((((OneLine.ite (.lit (by decide)) .nil).append (.lit (by decide))).append
        (.ite (.lit (by decide)) .nil)).append (.lit (by decide))).append ha)
  | .func s, h => by
    rw [typeNameToBuffer]
    rw [TypeName.wellNamed] at h
    exact .bind (oneLine_signature s h) fun a ha => .ok (OneLine.append (.lit (by decide)) ha)
  | .struct fs, h => by
    rw [typeNameToBuffer]
    rw [TypeName.wellNamed] at h
    exact .bind (oneLine_fields 0 fs h) fun a ha => .ok
      ((OneLine.append (.lit (by decide)) ha).append (.lit (by decide)))
  | .interface ms es, h => by
    rw [typeNameToBuffer]
    rw [TypeName.wellNamed, Bool.and_eq_true] at h
    exact .bind (oneLine_methods 0 ms h.1) fun a ha => .ok
      (((OneLine.append (.lit (by decide)) (OneLine.embeds 0 h.2)).append ha).append (.lit (by decide)))
theorem oneLine_fields : ∀ (i : Nat) (fs : List FieldType), wellNamedFields fs = true →
    Outcome.Is OneLine (fieldsToBuffer tbl i fs)
  | _, [], _ => by rw [fieldsToBuffer]; exact .ok .nil
  | i, ⟨name, t, tag⟩ :: l, h => by
    rw [fieldsToBuffer]
    rw [wellNamedFields, Bool.and_eq_true, Bool.and_eq_true] at h
    have hn : OneLine name := by
      have hh := h.1.1
      simp only [Bool.or_eq_true, Bool.and_eq_true, beq_iff_eq] at hh
      rcases hh with hh | hh
      · rw [hh.1]; exact .nil
      · exact .ident hh
    exact .bind (oneLine_type t h.1.2) fun a ha => .bind (oneLine_fields (i + 1) l h.2) fun b hb => .ok
      (((((OneLine.ite (.lit (by decide)) .nil).append (.ite (hn.append (.lit (by decide))) .nil)).append ha).append
        (.ite (OneLine.append (.lit (by decide)) (OneLine.tagText tbl tag)) .nil)).append hb)
theorem oneLine_methods : ∀ (i : Nat) (ms : List MethodType), wellNamedMethods ms = true →
    Outcome.Is OneLine (methodsToBuffer tbl i ms)
  | _, [], _ => by rw [methodsToBuffer]; exact .ok .nil
  | i, ⟨name, s⟩ :: l, h => by
    rw [methodsToBuffer]
    rw [wellNamedMethods, Bool.and_eq_true, Bool.and_eq_true] at h
    exact .bind (oneLine_signature s h.1.2) fun a ha => .bind (oneLine_methods (i + 1) l h.2) fun b hb => .ok
      ((((OneLine.ite (.lit (by decide)) .nil).append (.ident h.1.1)).append ha).append hb)
theorem oneLine_signature : ∀ s : Signature, s.wellNamed = true → Outcome.Is OneLine (signatureToBuffer tbl s)
  | ⟨args, results, v⟩, h => by
    rw [signatureToBuffer]
    rw [Signature.wellNamed, Bool.and_eq_true] at h
    exact .bind (oneLine_args _ _ _ _ args h.1) fun a ha => .bind (oneLine_args _ _ _ _ results h.2) fun b hb =>
      .ok (((OneLine.append (.lit (by decide)) ha).append (.lit (by decide))).append
        (.ite (((OneLine.append (.lit (by decide)) (.ite (.lit (by decide)) .nil)).append hb).append
          (.ite (.lit (by decide)) .nil)) .nil))
theorem oneLine_args (v nm : Bool) (n : Nat) : ∀ (i : Nat) (l : List ArgType), wellNamedArgs l = true →
    Outcome.Is OneLine (argsToBuffer tbl v nm n i l)
  | _, [], _ => by rw [argsToBuffer]; exact .ok .nil
  | i, ⟨name, t⟩ :: l, h => by
    rw [argsToBuffer]
    rw [wellNamedArgs, Bool.and_eq_true, Bool.and_eq_true] at h
    refine .bind (R := OneLine) (.ite (.bind (oneLine_elem t h.1.2) fun a ha => .ok ?_) (oneLine_type t h.1.2))
      fun a ha => .bind (oneLine_args v nm n (i + 1) l h.2) fun b hb => .ok ?_
    · exact OneLine.append (.lit (by decide)) ha
    · exact (((OneLine.ite (.lit (by decide)) .nil).append (OneLine.paramName h.1.1)).append ha).append hb
theorem oneLine_elem : ∀ t : TypeName, t.wellNamed = true → Outcome.Is OneLine (elemToBuffer tbl t)
  | .ptr e, h => by rw [elemToBuffer]; rw [TypeName.wellNamed] at h; exact oneLine_type e h
  | .slice e, h => by rw [elemToBuffer]; rw [TypeName.wellNamed] at h; exact oneLine_type e h
  | .array e _, h => by rw [elemToBuffer]; rw [TypeName.wellNamed] at h; exact oneLine_type e h
  | .map e _, h => by rw [elemToBuffer]; rw [TypeName.wellNamed, Bool.and_eq_true] at h; exact oneLine_type e h.1
  | .chan e _, h => by rw [elemToBuffer]; rw [TypeName.wellNamed] at h; exact oneLine_type e h
  | .nil, _ => by simp only [elemToBuffer]; exact .panic
  | .basic _, _ => by simp only [elemToBuffer]; exact .panic
  | .named _, _ => by simp only [elemToBuffer]; exact .panic
  | .func _, _ => by simp only [elemToBuffer]; exact .panic
  | .struct _, _ => by simp only [elemToBuffer]; exact .panic
  | .interface _ _, _ => by simp only [elemToBuffer]; exact .panic
end

theorem oneLine_typeString (t : TypeName) (h : t.wellNamed = true) : Outcome.Is OneLine (t.string tbl) := by
  cases t with
  | nil => exact .panic
  | basic k => exact .ok (OneLine.basicText k)
  | named s =>
    rw [TypeName.wellNamed] at h
    exact .ok (OneLine.symbolString h)
  | _ => exact oneLine_type _ h

end Gopoet
