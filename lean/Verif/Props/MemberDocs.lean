import Verif.Proof.OneLine
import Verif.Proof.UsedImports
import Verif.Proof.DeclLemmas
import Verif.Spec.DeclStands
/-!
# C76: members of types with identifiers as names

`C76_fields`, `C76_methods` and `C76_types` in Props/Docs.lean say what documents a member if no member ends with a line that is
a comment. Here this condition is shown for everything that stands for a Go type: nothing is asked of the members but that their
names are identifiers.
-/

namespace Gopoet

/-! ### Lines that are not comments -/

/-- The text begins with something else than a blank or a slash. -/
def StartsPlain (s : GoString) : Prop := ∃ c t, s = c :: t ∧ c ≠ 32 ∧ c ≠ 9 ∧ c ≠ 47

theorem StartsPlain.append {s : GoString} (h : StartsPlain s) (t : GoString) : StartsPlain (s ++ t) := by
  obtain ⟨c, r, rfl, h⟩ := h
  exact ⟨c, r ++ t, rfl, h⟩

theorem StartsPlain.notComment {s : GoString} (h : StartsPlain s) : isCommentLine s = false := by
  obtain ⟨c, t, rfl, h1, h2, h3⟩ := h
  rw [isCommentLine, List.dropWhile_cons_of_neg (by simp [h1, h2])]
  simp only [List.isPrefixOf, Bool.and_eq_false_iff, beq_eq_false_iff_ne]
  exact .inl (Ne.symm h3)

theorem startsPlain_ident {n : GoString} (hn : isIdent n = true) : StartsPlain n := by
  cases n with
  | nil => simp [isIdent] at hn
  | cons c t =>
    simp only [isIdent, Bool.and_eq_true] at hn
    refine ⟨c, t, rfl, ?_, ?_, ?_⟩ <;> (rintro rfl; exact absurd hn.1.1 (by decide))

theorem startsPlain_symbol {s : Symbol} (h : s.wellNamed = true) : StartsPlain s.string := by
  simp only [Symbol.wellNamed, Bool.and_eq_true] at h
  rw [Symbol.string]
  split
  · rename_i h0
    rw [Bool.or_eq_true, beq_iff_eq] at h
    rw [List.append_assoc]
    exact (startsPlain_ident (h.1.resolve_left h0)).append _
  · exact startsPlain_ident h.2

theorem startsPlain_basic {k : ReflectKind} (hv : (TypeName.basic k).valid = true) : StartsPlain (basicText k) := by
  cases k <;> first | exact ⟨_, _, rfl, by decide, by decide, by decide⟩ | simp [TypeName.valid, ReflectKind.isBasic] at hv

theorem startsPlain_embeddable {tbl : Nat → Bool} {t : TypeName} {s : GoString} (hv : t.valid = true) (hw : t.wellNamed = true)
    (he : t.embeddable = true) (hs : typeNameToBuffer tbl t = .ok s) : StartsPlain s := by
  cases t with
  | basic k => rw [typeNameToBuffer] at hs; cases hs; exact startsPlain_basic hv
  | named y =>
    rw [typeNameToBuffer] at hs
    cases hs
    rw [TypeName.wellNamed] at hw
    rw [symbolText_string]
    exact startsPlain_symbol hw
  | ptr e =>
    rw [typeNameToBuffer] at hs
    obtain ⟨a, -, hs⟩ := bind_eq_ok hs
    cases hs
    exact ⟨42, a, rfl, by decide, by decide, by decide⟩
  | _ => simp [TypeName.embeddable] at he

/-- A line that does not begin like a comment. -/
theorem docAbove_plain {l : GoString} (h1 : OneLine l) (h2 : StartsPlain l) : docAbove (l ++ b! "\n") = [] := by
  have := C76_line (pre := []) (.inl rfl) h1 h2.notComment
  rwa [List.nil_append] at this

/-- What ends with a line, followed by a tag or nothing on a line of its own. -/
theorem docAbove_tag {tbl : Nat → Bool} {pre : GoString} (h : EndsLine pre) (tag : GoString) :
    docAbove (pre ++ fieldTagText tbl tag ++ b! "\n") = [] := by
  refine C76_line (.inr h) (OneLine.fieldTagText tbl tag) ?_
  rw [fieldTagText]
  split
  · have : ∃ c t, tagText tbl tag = c :: t ∧ c ≠ 32 ∧ c ≠ 9 ∧ c ≠ 47 := by
      rw [tagText]
      split
      · exact ⟨96, _, rfl, by decide, by decide, by decide⟩
      · exact ⟨34, _, rfl, by decide, by decide, by decide⟩
    exact (StartsPlain.notComment (s := tagText tbl tag) this : _)
  · rfl

/-! ### Fields, elements and specs -/

theorem docAbove_field {env : Env} {h : Heap} {fuel : Nat} {f : FieldSpec} {g : GoField SynName} (hf : FieldStands h f g)
    {x : GoString} (hx : f.text env h (writeUnderlying env h fuel) = .ok (writeComment f.comment ++ x)) : docAbove x = [] := by
  obtain ⟨t, ht, hx⟩ := bind_eq_ok hx
  have hx : x = (if f.name ≠ [] then f.name ++ b! " " else []) ++ t ++ fieldTagText env.isPrint f.tag ++ b! "\n" := by
    have := Outcome.ok.inj hx
    simp only [List.append_assoc] at this ⊢
    exact (List.append_cancel_left this).symm
  subst hx
  have line : OneLine t → (f.name = [] ∧ StartsPlain t ∨ isIdent f.name = true) →
      docAbove ((if f.name ≠ [] then f.name ++ b! " " else []) ++ t ++ fieldTagText env.isPrint f.tag ++ b! "\n") = [] := by
    intro h1 h2
    rcases h2 with ⟨h2, h3⟩ | h2
    · rw [if_neg (by simp [h2]), List.nil_append]
      exact docAbove_plain (h1.append (.fieldTagText _ _)) (h3.append _)
    · have h0 : f.name ≠ [] := by intro e; rw [e] at h2; simp [isIdent] at h2
      rw [if_pos h0]
      refine docAbove_plain ((((OneLine.ident h2).append (.lit (by decide))).append h1).append (.fieldTagText _ _)) ?_
      exact (((startsPlain_ident h2).append _).append _).append _
  cases hf with
  | @type _ T hT hv hw hn =>
    rw [hT, fieldTypeText] at ht
    cases hb : T.isBlock with
    | true =>
      obtain ⟨k, hk, hk'⟩ := kind_block hb
      rw [hk] at ht
      simp only [Outcome.bind, bind, hk', if_true] at ht
      refine docAbove_tag (.append _ ?_) _
      cases T <;> first | (simp [TypeName.isBlock] at hb; done) | skip
      all_goals
        rw [underlyingText.eq_def] at ht
        obtain ⟨a, -, ht⟩ := bind_eq_ok ht
        try obtain ⟨b, -, ht⟩ := bind_eq_ok ht
        cases ht
        exact .append _ ⟨b! "}", rfl⟩
    | false =>
      obtain ⟨k, hk, hk'⟩ := kind_line hv hb
      obtain ⟨w, hws, _⟩ := render_type env.isPrint hv hw
      rw [hk] at ht
      simp only [Outcome.bind, bind, hk', if_false, fprintf_type hws] at ht
      cases ht
      exact line (oneLine_type T hw _ hws) (hn.imp_left fun h => ⟨h.1, startsPlain_embeddable hv hw h.2 hws⟩)
  | @named _ q ts s hT hq h0 hs hw hn =>
    rw [hT, fieldTypeText, deref, hq] at ht
    simp only [Outcome.bind, bind, h0, if_false, hs] at ht
    rw [fprintf_str (a := .symbol s) (s := s.string) rfl] at ht
    cases ht
    exact line (OneLine.symbolString hw) (hn.imp_left fun h => ⟨h, startsPlain_symbol hw⟩)
  | @unnamed _ q ts _ hT hq h0 _ hn =>
    rw [hT, fieldTypeText, deref, hq] at ht
    simp only [Outcome.bind, bind, h0, if_true] at ht
    exact docAbove_tag (.append _ (endsLine_underlying ht)) _

theorem docAbove_elem {env : Env} {h : Heap} {e : IfaceElem} {g : GoElem SynName} (he : ElemStands h e g)
    {c x : GoString} (hc : e.Commented h c) (hx : e.text env h = .ok (writeComment c ++ x)) : docAbove x = [] := by
  cases he with
  | @embed p E hE hw =>
    obtain ⟨E', h1, rfl⟩ := hc
    rw [hE] at h1; cases h1
    rw [IfaceElem.text, deref, hE] at hx
    have hx := Outcome.ok.inj hx
    rw [InterfaceEmbed.text, List.append_assoc] at hx
    rw [← List.append_cancel_left hx]
    exact docAbove_plain (OneLine.symbolString hw) (startsPlain_symbol hw)
  | @method p M hM hn hv hw =>
    obtain ⟨M', h1, rfl⟩ := hc
    rw [hM] at h1; cases h1
    rw [IfaceElem.text, deref, hM] at hx
    obtain ⟨s, hs, hx⟩ := bind_eq_ok (show (signatureToBuffer env.isPrint M.signature).bind _ = _ from hx)
    have hx := Outcome.ok.inj hx
    simp only [List.append_assoc] at hx
    rw [← List.append_cancel_left hx, ← List.append_assoc]
    exact docAbove_plain ((OneLine.ident hn).append (oneLine_signature _ hw _ hs)) ((startsPlain_ident hn).append _)

theorem docAbove_spec {env : Env} {h : Heap} {fuel : Nat} {q : Ptr} {ts : TypeSpec} {d : DeclaredType} (hq : h.types q = some ts)
    (hd : StandsType h q d) {x : GoString} (hx : ts.text env h fuel true = .ok (writeComment ts.comment ++ x)) : docAbove x = [] := by
  obtain ⟨ts', h1, hn, -, -, hb⟩ := hd
  rw [hq] at h1; cases h1
  obtain ⟨u, hu, hx⟩ := bind_eq_ok hx
  have hx : x = ts.name ++ b! " " ++ (if ts.isAlias then b! "= " else []) ++ u := by
    have := Outcome.ok.inj hx
    simp only [if_true, List.append_assoc] at this ⊢
    exact (List.append_cancel_left this).symm
  subst hx
  have body : (∃ fs, ts.underlying = .struct fs) ∨ (∃ ms es, ts.underlying = .interface ms es) → 
      docAbove (ts.name ++ b! " " ++ (if ts.isAlias then b! "= " else []) ++ u) = [] := by
    intro hh
    have := C76_body (env := env) (h := h) (fuel := fuel) (t := ts) (s := ts.name ++ b! " " ++ (if ts.isAlias then b! "= " else []) ++ u)
      (by rw [TypeSpec.text, hu]; simp [bind, Outcome.bind, pure]) hh
    exact this
  generalize d.type = ty at hb
  cases hb with
  | struct h1 _ => exact body (.inl ⟨_, h1⟩)
  | iface h1 _ => exact body (.inr ⟨_, _, h1⟩)
  | other h1 h2 h3 =>
    cases fuel with
    | zero => simp [writeUnderlying] at hu
    | succ fuel =>
      rw [writeUnderlying] at hu
      have : ∃ a, typeNameToBuffer env.isPrint ts.underlying = .ok a ∧ u = b! " " ++ a ++ b! "\n" := by
        revert hu h1 h2
        cases ts.underlying <;> intro h1 h2 hu <;>
          first
          | (simp [TypeName.isBlock] at h1; done)
          | (simp [TypeName.valid] at h2; done)
          | (obtain ⟨a, ha, hu⟩ := bind_eq_ok hu
             cases hu
             exact ⟨a, ha, rfl⟩)
      obtain ⟨a, ha, rfl⟩ := this
      rw [← List.append_assoc, ← List.append_assoc]
      refine docAbove_plain ?_ ((((startsPlain_ident hn).append _).append _).append _ |>.append _)
      exact ((((OneLine.ident hn).append (.lit (by decide))).append (.ite (.lit (by decide)) .nil)).append (.lit (by decide))).append
        (oneLine_type _ h3 _ ha)

/-! ### The theorems -/

/-- The texts in `items` are written one after the other, after `head` and before `tail`, with their comments; and after everything
that leaves no comment above them, each is documented by its comment and nothing else. -/
def DocumentedAll (head : GoString) (items : List (GoString × GoString)) (tail text : GoString) : Prop :=
  text = head ++ items.flatMap (fun x => writeComment x.1 ++ x.2) ++ tail ∧
  ∀ pre, docAbove (pre ++ head) = [] → ∀ k c b, items[k]? = some (c, b) →
    docAbove (pre ++ head ++ (items.take k).flatMap (fun x => writeComment x.1 ++ x.2) ++ writeComment c) = docLines c

theorem forall₂_all_right {α β : Type} {R : α → β → Prop} {P : β → Prop} : ∀ {l : List α} {m : List β}, List.Forall₂ R l m →
    (∀ a ∈ l, ∀ b, R a b → P b) → ∀ b ∈ m, P b
  | _, _, .nil, _, b, hb => by cases hb
  | _, _, .cons h t, hP, b, hb => by
    rcases List.mem_cons.1 hb with rfl | hb
    · exact hP _ List.mem_cons_self _ h
    · exact forall₂_all_right t (fun a ha => hP a (List.mem_cons_of_mem _ ha)) b hb

theorem FieldsStand.mem {h : Heap} : ∀ {ps : List Ptr} {l : List (GoField SynName)}, FieldsStand h ps l → ∀ p ∈ ps,
    ∃ f g, h.fields p = some f ∧ FieldStands h f g
  | _, _, .nil, p, hp => by cases hp
  | _, _, .cons h1 h2 h3, p, hp => by
    rcases List.mem_cons.1 hp with rfl | hp
    · exact ⟨_, _, h1, h2⟩
    · exact FieldsStand.mem h3 p hp

/-- **C76** Each field of a struct type is documented by its own comment, without further condition, if the fields stand for fields
of Go: their names are identifiers and their types valid. -/
theorem C76_struct {env : Env} {h : Heap} {fuel : Nat} {t : TypeSpec} {s : GoString} {fs : List FieldType} {l : List (GoField SynName)}
    (hs : writeUnderlying env h (fuel + 1) t = .ok s) (hu : t.underlying = .struct fs) (hl : FieldsStand h t.structBody l) :
    ∃ items, List.Forall₂ (fun p (x : GoString × GoString) => ∃ f, h.fields p = some f ∧ x.1 = f.comment ∧
        f.text env h (writeUnderlying env h fuel) = .ok (writeComment x.1 ++ x.2)) t.structBody items ∧
      DocumentedAll (b! " struct {\n") items (b! "}\n") s := by
  obtain ⟨items, h1, h2, h3⟩ := C76_fields hs hu
  refine ⟨items, h1, h2, fun pre hp => h3 pre hp (forall₂_all_right h1 ?_)⟩
  rintro p hp x ⟨f, k1, k2, k3⟩
  obtain ⟨f', g, k4, k5⟩ := hl.mem p hp
  rw [k1] at k4; cases k4
  rw [k2] at k3
  exact docAbove_field k5 k3

/-- **C76** Likewise each embedded type and each method of an interface type. -/
theorem C76_interface {env : Env} {h : Heap} {fuel : Nat} {t : TypeSpec} {s : GoString} {ms es} {l : List (GoElem SynName)}
    (hs : writeUnderlying env h (fuel + 1) t = .ok s) (hu : t.underlying = .interface ms es)
    (hl : List.Forall₂ (ElemStands h) t.interfaceBody l) :
    ∃ items, List.Forall₂ (fun (e : IfaceElem) (x : GoString × GoString) => e.Commented h x.1 ∧
        e.text env h = .ok (writeComment x.1 ++ x.2)) t.interfaceBody items ∧
      DocumentedAll (b! " interface {\n") items (b! "}\n") s := by
  obtain ⟨items, h1, h2, h3⟩ := C76_methods hs hu
  refine ⟨items, h1, h2, fun pre hp => h3 pre hp (forall₂_all_right h1 ?_)⟩
  rintro e he x ⟨k1, k2⟩
  obtain ⟨g, -, hg⟩ := forall₂_mem_left hl he
  exact docAbove_elem hg k1 k2

/-- **C76** And each type of a group. -/
theorem C76_type_group {env : Env} {h : Heap} {fuel : Nat} {d : TypeDecl} {s : GoString} (hs : d.text env h fuel = .ok s)
    (hg : d.types.length > 1 ∨ d.comment ≠ []) (hd : ∀ q ∈ d.types, ∃ t, StandsType h q t) :
    ∃ items, List.Forall₂ (fun p (x : GoString × GoString) => ∃ t, h.types p = some t ∧ x.1 = t.comment ∧
        t.text env h fuel true = .ok (writeComment x.1 ++ x.2)) d.types items ∧
      DocumentedAll (writeComment d.comment ++ b! "type (\n") items (b! ")\n") s := by
  obtain ⟨items, h1, h2, h3⟩ := C76_types hs hg
  refine ⟨items, h1, h2, fun pre hp => h3 pre hp (forall₂_all_right h1 ?_)⟩
  rintro q hq x ⟨t, k1, k2, k3⟩
  obtain ⟨T, hT⟩ := hd q hq
  rw [k2] at k3
  exact docAbove_spec k1 hT k3

/-! ### Examples -/

/-- A field with a tag on a line of its own, then one with a comment: the tag is not part of it. -/
def exTagged : Heap :=
  { fields := fun
      | 1 => some { name := b! "Box", type := .name (.struct []), tag := b! "x:\"1\"", comment := b! "First." }
      | 2 => some { name := b! "Size", type := .name (.basic .int), comment := b! "Second." }
      | _ => none }

/-- The struct with these fields. -/
def exTaggedSpec : TypeSpec := { name := b! "Item", underlying := .struct [], structBody := [1, 2] }

theorem exTagged_stand : FieldsStand exTagged exTaggedSpec.structBody
    [.mk (some (b! "Box")) (.struct []) (some (b! "x:\"1\"")), .mk (some (b! "Size")) (.name (none, b! "int")) none] := by
  have h1 := FieldStands.type (h := exTagged) (f := { name := b! "Box", type := .name (.struct []), tag := b! "x:\"1\"", comment := b! "First." })
    rfl rfl rfl (.inr (by decide))
  have h2 := FieldStands.type (h := exTagged) (f := { name := b! "Size", type := .name (.basic .int), comment := b! "Second." })
    rfl rfl rfl (.inr (by decide))
  exact .cons rfl h1 (.cons rfl h2 .nil)

example : writeUnderlying exEnv exTagged 2 exTaggedSpec = .ok (b! " struct {
// First.
Box  struct {
}
 `x:\"1\"`
// Second.
Size int
}
") := by decide +kernel

/-- A name that is no identifier can be a comment, which is then read as that of the next member. -/
example : ∃ (h : Heap) (t : TypeSpec), t.structBody = [1, 2] ∧ writeUnderlying exEnv h 2 t = .ok (b! " struct {
// Box int
Size int
}
") := ⟨{ fields := fun
      | 1 => some { name := b! "// Box", type := .name (.basic .int) }
      | 2 => some { name := b! "Size", type := .name (.basic .int) }
      | _ => none }, { name := b! "Item", underlying := .struct [], structBody := [1, 2] }, rfl, by decide +kernel⟩

end Gopoet
