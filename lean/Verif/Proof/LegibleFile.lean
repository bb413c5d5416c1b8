import Verif.Proof.LegibleQualify
/-! For C74: the text of specs, declarations and files. -/

namespace Gopoet
open Imports

theorem Outcome.Is.concat {α} {f : α → Outcome GoString} : ∀ {l : List α}, (∀ a ∈ l, Outcome.Is SourceText (f a)) →
    Outcome.Is SourceText (concatText f l)
  | [], _ => .ok .nil
  | a :: l, h => .bind (h a (by simp)) fun _ h1 => .bind (Outcome.Is.concat fun b hb => h b (by simp [hb])) fun _ h2 =>
    .ok (h1.append h2)

/-- What fmt sees of an argument is source text. -/
def Shown.Legible : Shown → Prop
  | .str s => SourceText s
  | _ => True

theorem legible_ofString {o : Outcome GoString} (h : Outcome.Is SourceText o) : (Shown.ofString o).Legible := by
  cases o with
  | ok s => exact h s rfl
  | _ => trivial

variable {tbl : Nat → Bool} {h : Heap}

theorem legible_symbolStrings (hh : h.Legible) {c : ValueSpec} (hc : ∀ n ∈ c.names, SourceText n) : ∀ l,
    Outcome.Is (fun ss : List GoString => ∀ s ∈ ss, SourceText s) (symbolStrings h c l)
  | [] => .ok (by simp)
  | i :: is => by
    rw [symbolStrings]
    refine .bind (legible_symbolAt hh hc i) fun _ h1 => .bind (legible_symbolStrings hh hc is) fun _ h2 => .ok fun s hs => ?_
    rcases List.mem_cons.1 hs with rfl | hs
    · exact sourceText_symbolString h1
    · exact h2 s hs

theorem legible_valueString (hh : h.Legible) {c : ValueSpec} (hc : ∀ n ∈ c.names, SourceText n) :
    Outcome.Is SourceText (c.string h) := by
  rw [ValueSpec.string]
  refine .ite ?_ ?_
  · split
    · exact .ok (sourceText_joinWith (.ascii (by decide)) hc)
    · exact .bind (legible_symbolStrings hh hc _) fun _ h1 => .ok (sourceText_joinWith (.ascii (by decide)) h1)
  · split
    · refine .ok ?_
      cases hn : c.names with
      | nil => exact .nil
      | cons a l => exact hc a (by simp [hn])
    · exact .bind (legible_valueSymbol hh hc) fun _ h1 => .ok (sourceText_symbolString h1)

theorem legible_typeSpecString (htbl : tbl 0xFEFF = false) (hh : h.Legible) {t : TypeSpec} (hn : SourceText t.name)
    (hu : t.underlying.Legible) : Outcome.Is SourceText (t.string tbl h) := by
  rw [TypeSpec.string]
  refine .ite (sourceText_typeString htbl _ hu) ?_
  split
  · exact .ok hn
  · exact .bind (legible_typeSymbol hh hn) fun _ h1 => .ok (sourceText_symbolString h1)

theorem legible_funcString (hh : h.Legible) {f : FuncSpec} (hn : SourceText f.name)
    (hr : ∀ r, f.receiver = some r → SourceText r.name ∧ SourceText r.type) : Outcome.Is SourceText (f.string h) := by
  rw [FuncSpec.string]
  refine .ite (.ok hn) (.bind (legible_funcSymbol hh hn hr) fun s h1 => .ok ?_)
  cases s with
  | symbol s => exact sourceText_symbolString h1
  | method m => exact ((sourceText_symbolString h1.1).append (.ascii (by decide))).append h1.2

theorem legible_shown (htbl : tbl 0xFEFF = false) (hh : h.Legible) (a : Arg) (ha : a.Legible) : (a.shown tbl h).Legible := by
  cases a
  case str => exact ha
  case package | packagePtr => exact ha
  case symbol | symbolPtr => exact sourceText_symbolString ha
  case mref | mrefPtr => exact ((sourceText_symbolString ha.1).append (.ascii (by decide))).append ha.2
  case typeName t => exact legible_ofString (sourceText_typeString htbl t ha)
  case value p => exact legible_ofString (.bind (.deref fun c hc => (hh.values p c hc).2.1) fun _ h1 => legible_valueString hh h1)
  case typeSpec p => exact legible_ofString (.bind (.deref fun c hc => (hh.types p c hc).2) fun _ h1 => legible_typeSpecString htbl hh h1.1 h1.2)
  case ifaceMethod p => exact legible_ofString (.bind (.deref fun c hc => (hh.methods p c hc).2.1) fun _ h1 => .ok h1)
  case func p => exact legible_ofString (.bind (.deref fun c hc => hh.funcs p c hc) fun _ h1 => legible_funcString hh h1.2.1 h1.2.2.2)
  case ifaceEmbed p => exact legible_ofString (.bind (.deref fun c hc => (hh.embeds p c hc).2) fun _ h1 => .ok (sourceText_symbolString h1))
  case field p => exact legible_ofString (.bind (.deref fun c hc => (hh.fields p c hc).2.1) fun _ h1 => .ok h1)
  case reflectType | goType | goObject | goPackage => exact ha.2
  all_goals trivial

theorem legible_fmtVerb (htbl : tbl 0xFEFF = false) {v : UInt8} {a : Shown} (ha : a.Legible) {x : GoString}
    (hx : fmtVerb tbl v a = some x) : SourceText x ∧ v.toNat < 128 := by
  cases a with
  | str s =>
    simp only [fmtVerb] at hx
    split at hx
    · rename_i hv
      cases hx
      exact ⟨ha, by rcases hv with rfl | rfl <;> decide⟩
    · split at hx
      · rename_i hv
        cases hx
        exact ⟨sourceText_quote htbl s, by subst hv; decide⟩
      · cases hx
  | int n =>
    simp only [fmtVerb] at hx
    split at hx
    · rename_i hv
      cases hx
      exact ⟨sourceText_decInt n, by rcases hv with rfl | rfl <;> decide⟩
    · cases hx
  | other => cases hx

theorem legible_sprintf (htbl : tbl 0xFEFF = false) : ∀ (format : GoString) (args : List Shown) (pre s : GoString),
    SourceText (pre ++ format) → (∀ a ∈ args, a.Legible) → sprintf tbl format args = some s → SourceText (pre ++ s) := by
  intro format args
  induction format, args using sprintf.induct tbl with
  | case1 =>
    intro pre s hf _ he
    simp only [sprintf, Option.some.injEq] at he
    exact he ▸ hf
  | case2 => intro pre s hf _ he; simp [sprintf] at he
  | case3 args => intro pre s hf _ he; simp [sprintf] at he
  | case4 c args hc ha =>
    intro pre s hf _ he
    rw [sprintf, if_neg hc, if_pos ha] at he
    simp only [Option.some.injEq] at he
    exact he ▸ hf
  | case5 c args hc ha =>
    intro pre s hf _ he
    rw [sprintf, if_neg hc, if_neg ha] at he
    cases he
  | case6 rest args ih =>
    intro pre s hf ha he
    rw [sprintf.eq_def] at he
    simp only [if_true] at he
    obtain ⟨t, h1, rfl⟩ := Option.map_eq_some_iff.1 he
    obtain ⟨h2, h3⟩ := hf.cut (by decide)
    obtain ⟨-, h4⟩ := h3.cut (a := []) (by decide)
    exact h2.append (.cons (by decide) (by decide) (ih [] t h4 ha h1))
  | case7 v rest hv hv' ih =>
    intro pre s hf ha he
    rw [sprintf, if_pos rfl, if_neg hv, if_pos hv'] at he
    obtain ⟨t, h1, rfl⟩ := Option.map_eq_some_iff.1 he
    obtain ⟨h2, h3⟩ := hf.cut (by decide)
    have hasc : 0 < v.toNat ∧ v.toNat < 128 := by rcases hv' with rfl | rfl | rfl | rfl <;> decide
    obtain ⟨-, h4⟩ := h3.cut (a := []) hasc.2
    exact h2.append ((((SourceText.append (.ascii (by decide)) (.one hasc.1 hasc.2))).append (.ascii (by decide))).append
      (ih [] t h4 ha h1))
  | case8 v rest hv hv' =>
    intro pre s hf ha he
    rw [sprintf, if_pos rfl, if_neg hv, if_neg hv'] at he
    cases he
  | case9 v rest hv a args x y hy hx ih =>
    intro pre s hf ha he
    rw [sprintf, if_pos rfl, if_neg hv] at he
    simp only [hx, hy, Option.some.injEq] at he
    subst he
    obtain ⟨h1, hasc⟩ := legible_fmtVerb htbl (ha a (by simp)) hx
    obtain ⟨h2, h3⟩ := hf.cut (by decide)
    obtain ⟨-, h4⟩ := h3.cut (a := []) hasc
    exact h2.append (h1.append (ih [] y h4 (fun b hb => ha b (by simp [hb])) hy))
  | case10 v rest hv a args hn ih =>
    intro pre s hf ha he
    rw [sprintf, if_pos rfl, if_neg hv] at he
    split at he
    · rename_i x y hx hy
      exact absurd hy (hn x y hx)
    · cases he
  | case11 c v rest args hc ih =>
    intro pre s hf ha he
    rw [sprintf.eq_def] at he
    simp only [if_neg hc] at he
    obtain ⟨t, h1, rfl⟩ := Option.map_eq_some_iff.1 he
    have := ih (pre ++ [c]) t (by simpa using hf) ha h1
    simpa using this

variable {env : Env}

theorem legible_fprintf (henv : env.Plain h) (hh : h.Legible) {format : GoString} {args : List Arg} (hf : SourceText format)
    (ha : ∀ a ∈ args, a.Legible) (ho : sprintf env.isPrint format (args.map (Arg.shown env.isPrint h)) = none →
      SourceText (env.fmtOther h format args)) : SourceText (fprintf env h format args) := by
  rw [fprintf]
  split
  · rename_i s hs
    refine legible_sprintf henv.bom format _ [] s hf ?_ hs
    intro x hx
    obtain ⟨a, h1, rfl⟩ := List.mem_map.1 hx
    exact legible_shown henv.bom hh a (ha a h1)
  · rename_i hs
    exact ho hs

theorem legible_codeElem (henv : env.Plain h) (hh : h.Legible) {x : CodeElem} (hx : x.Legible env h) :
    Outcome.Is SourceText (x.text env h) := by
  cases x with
  | line format p =>
    refine .bind (R := fun l => h.args p = some l) (.deref fun l hl => hl) fun l hl => .ok ?_
    exact legible_fprintf henv hh hx.1 (hh.args p l hl) (hx.2 l hl)
  | templ p =>
    refine .bind (R := fun t => h.templs p = some t) (.deref fun l hl => hl) fun t ht => ?_
    cases he : env.exec h t.templ t.data with
    | none => exact .panic
    | some s => exact .ok (hx t s ht he)

theorem legible_codeText (henv : env.Plain h) (hh : h.Legible) {cb : CodeBlock} (hx : ∀ x ∈ cb, x.Legible env h) :
    Outcome.Is SourceText (codeText env h cb) := .concat fun x hc => legible_codeElem henv hh (hx x hc)

theorem legible_show (henv : env.Plain h) (hh : h.Legible) {a : Arg} (ha : a.Legible) :
    SourceText (fprintf env h (b! "%v") [a]) ∧ SourceText (fprintf env h (b! " %v") [a]) :=
  ⟨legible_fprintf henv hh (.ascii (by decide)) (by simpa using ha) fun _ => (henv.failed a).1,
    legible_fprintf henv hh (.ascii (by decide)) (by simpa using ha) fun _ => (henv.failed a).2⟩

theorem legible_valueText (henv : env.Plain h) (hh : h.Legible) {c : ValueSpec} (h1 : SourceText c.comment)
    (h2 : ∀ n ∈ c.names, SourceText n) (h3 : c.type.Legible)
    (hx : ∀ b cb x, c.init = some b → h.blocks b = some cb → x ∈ cb → x.Legible env h) (ic : Bool) :
    Outcome.Is SourceText (c.text env h ic) := by
  rw [ValueSpec.text]
  refine .bind (R := SourceText) ?_ fun _ h4 => .ok (((((SourceText.ite (sourceText_writeComment h1) .nil).append
    (sourceText_joinWith (.ascii (by decide)) h2)).append ?_).append h4).append (.ascii (by decide)))
  · cases hi : c.init with
    | none => exact .ok .nil
    | some b =>
      exact .bind (R := fun cb => h.blocks b = some cb) (.deref fun l hl => hl) fun cb hcb =>
        .bind (legible_codeText henv hh fun x hc => hx b cb x hi hcb hc) fun _ h5 => .ok (SourceText.append (.ascii (by decide)) h5)
  · cases ht : c.type with
    | nil => exact .nil
    | name t => rw [ht] at h3; exact (legible_show henv hh (a := .typeName t) h3).2
    | spec r => exact (legible_show henv hh (a := .typeSpec r) trivial).2

theorem legible_valueDeclText (henv : env.Plain h) (hh : h.Legible) {d : ValueDecl} (h1 : SourceText d.comment)
    (hx : ∀ q c b cb x, q ∈ d.specs → h.values q = some c → c.init = some b → h.blocks b = some cb → x ∈ cb → x.Legible env h) :
    Outcome.Is SourceText (d.text env h) := by
  have hk : SourceText d.kind.keyword := by cases d.kind <;> exact .ascii (by decide)
  rw [ValueDecl.text]
  refine .ite ?_ ?_
  · refine .bind (R := SourceText) (.concat fun q hq => .bind (R := fun c => h.values q = some c) (.deref fun l hl => hl)
      fun c hc => ?_) fun _ h2 => .ok (((((sourceText_writeComment h1).append hk).append (.ascii (by decide))).append h2).append
        (.ascii (by decide)))
    obtain ⟨h3, h4, h5⟩ := hh.values q c hc
    exact legible_valueText henv hh h3 h4 h5 (fun b cb x => hx q c b cb x hq hc) _
  · split
    · exact .panic
    · rename_i q l hl
      refine .bind (R := fun c => h.values q = some c) (.deref fun l hl => hl) fun c hc => ?_
      obtain ⟨h3, h4, h5⟩ := hh.values q c hc
      exact .bind (legible_valueText henv hh h3 h4 h5 (fun b cb x => hx q c b cb x (by simp [hl]) hc) _) fun _ h6 =>
        .ok ((((sourceText_writeComment h3).append hk).append (.ascii (by decide))).append h6)

theorem legible_tag (htbl : tbl 0xFEFF = false) (s : GoString) : SourceText (fieldTagText tbl s) :=
  .ite (SourceText.append (.ascii (by decide)) (sourceText_tagText htbl s)) .nil

theorem legible_embedText {e : InterfaceEmbed} (h1 : SourceText e.comment) (h2 : e.type.Legible) : SourceText e.text :=
  ((sourceText_writeComment h1).append (sourceText_symbolString h2)).append (.ascii (by decide))

theorem legible_methodText (htbl : env.isPrint 0xFEFF = false) {m : InterfaceMethod} (h1 : SourceText m.comment)
    (h2 : SourceText m.name) (h3 : m.signature.Legible) : Outcome.Is SourceText (m.text env) :=
  .bind (sourceText_signature htbl _ h3) fun _ h4 =>
    .ok ((((sourceText_writeComment h1).append h2).append h4).append (.ascii (by decide)))

theorem LegibleMethods.mem : ∀ {l : List MethodType}, LegibleMethods l → ∀ m ∈ l, SourceText m.name ∧ m.signature.Legible
  | [], _, _, hm => by simp at hm
  | ⟨n, s⟩ :: l, h, m, hm => by
    rw [LegibleMethods] at h
    rcases List.mem_cons.1 hm with rfl | hm
    · exact ⟨h.1, h.2.1⟩
    · exact h.2.2.mem m hm

mutual
theorem legible_underlyingText (henv : env.Plain h) (hh : h.Legible) : ∀ t : TypeName, t.Legible →
    Outcome.Is SourceText (underlyingText env h t)
  | .struct fs, ht => by
    rw [underlyingText]
    rw [TypeName.Legible] at ht
    exact .bind (legible_fieldTypesText henv hh fs ht) fun _ h1 =>
      .ok ((SourceText.append (.ascii (by decide)) h1).append (.ascii (by decide)))
  | .interface ms es, ht => by
    rw [underlyingText]
    rw [TypeName.Legible] at ht
    refine .bind (.concat fun e he => .ok (legible_embedText .nil (ht.2 e he))) fun _ h1 =>
      .bind (.concat fun m hm => legible_methodText henv.bom .nil (ht.1.mem m hm).1 (ht.1.mem m hm).2) fun _ h2 =>
      .ok ((SourceText.append (.ascii (by decide)) (h1.append h2)).append (.ascii (by decide)))
  | .nil, ht => by
    rw [underlyingText] <;> first | exact .bind (sourceText_type henv.bom _ ht) fun _ h1 => .ok ((SourceText.append (.ascii (by decide)) h1).append (.ascii (by decide))) | (intros; simp_all)
  | .basic _, ht => by
    rw [underlyingText] <;> first | exact .bind (sourceText_type henv.bom _ ht) fun _ h1 => .ok ((SourceText.append (.ascii (by decide)) h1).append (.ascii (by decide))) | (intros; simp_all)
  | .named _, ht => by
    rw [underlyingText] <;> first | exact .bind (sourceText_type henv.bom _ ht) fun _ h1 => .ok ((SourceText.append (.ascii (by decide)) h1).append (.ascii (by decide))) | (intros; simp_all)
  | .ptr _, ht => by
    rw [underlyingText] <;> first | exact .bind (sourceText_type henv.bom _ ht) fun _ h1 => .ok ((SourceText.append (.ascii (by decide)) h1).append (.ascii (by decide))) | (intros; simp_all)
  | .slice _, ht => by
    rw [underlyingText] <;> first | exact .bind (sourceText_type henv.bom _ ht) fun _ h1 => .ok ((SourceText.append (.ascii (by decide)) h1).append (.ascii (by decide))) | (intros; simp_all)
  | .array _ _, ht => by
    rw [underlyingText] <;> first | exact .bind (sourceText_type henv.bom _ ht) fun _ h1 => .ok ((SourceText.append (.ascii (by decide)) h1).append (.ascii (by decide))) | (intros; simp_all)
  | .map _ _, ht => by
    rw [underlyingText] <;> first | exact .bind (sourceText_type henv.bom _ ht) fun _ h1 => .ok ((SourceText.append (.ascii (by decide)) h1).append (.ascii (by decide))) | (intros; simp_all)
  | .chan _ _, ht => by
    rw [underlyingText] <;> first | exact .bind (sourceText_type henv.bom _ ht) fun _ h1 => .ok ((SourceText.append (.ascii (by decide)) h1).append (.ascii (by decide))) | (intros; simp_all)
  | .func _, ht => by
    rw [underlyingText] <;> first | exact .bind (sourceText_type henv.bom _ ht) fun _ h1 => .ok ((SourceText.append (.ascii (by decide)) h1).append (.ascii (by decide))) | (intros; simp_all)
theorem legible_fieldTypesText (henv : env.Plain h) (hh : h.Legible) : ∀ l : List FieldType, LegibleFields l →
    Outcome.Is SourceText (fieldTypesText env h l)
  | [], _ => by rw [fieldTypesText]; exact .ok .nil
  | ⟨name, t, tag⟩ :: l, hl => by
    rw [LegibleFields] at hl
    obtain ⟨h1, h2, h3⟩ := hl
    have h5 := legible_fieldTypesText henv hh l h3
    have done : ∀ {o : Outcome GoString}, Outcome.Is SourceText o → Outcome.Is SourceText (do
        let a ← o
        let b ← fieldTypesText env h l
        pure ((if name ≠ [] then name ++ b! " " else []) ++ a ++ fieldTagText env.isPrint tag ++ b! "\n" ++ b)) := fun h4 =>
      .bind h4 fun _ h4 => .bind h5 fun _ h5 =>
      .ok (((((SourceText.ite (h1.append (.ascii (by decide))) .nil).append h4).append (legible_tag henv.bom tag)).append
        (.ascii (by decide))).append h5)
    have sh : ∀ t : TypeName, t.Legible → SourceText (fprintf env h (b! "%v") [.typeName t]) :=
      fun t ht => (legible_show henv hh (a := .typeName t) ht).1
    cases t
    case nil => rw [fieldTypesText]; exact done (.ok .nil)
    case struct fs => rw [fieldTypesText]; exact done (legible_underlyingText henv hh (.struct fs) h2)
    case interface ms es => rw [fieldTypesText]; exact done (legible_underlyingText henv hh (.interface ms es) h2)
    all_goals
      rw [fieldTypesText]
      all_goals first
        | exact done (.ok (sh _ h2))
        | (intros; simp_all)
end

theorem legible_writeUnderlying (henv : env.Plain h) (hh : h.Legible) : ∀ (fuel : Nat) (t : TypeSpec), t.underlying.Legible →
    Outcome.Is SourceText (writeUnderlying env h fuel t)
  | 0, _, _ => .hang
  | fuel + 1, t, ht => by
    rw [writeUnderlying]
    split
    · exact .panic
    · refine .bind (.concat fun p _ => .bind (.deref fun f hf => hh.fields p f hf) fun f hf => ?_) fun _ h1 =>
        .ok ((SourceText.append (.ascii (by decide)) h1).append (.ascii (by decide)))
      rw [FieldSpec.text]
      obtain ⟨h1, h2, h3⟩ := hf
      refine .bind (R := SourceText) ?_ fun _ h4 => .ok (((((sourceText_writeComment h1).append
        (.ite (h2.append (.ascii (by decide))) .nil)).append h4).append (legible_tag henv.bom _)).append (.ascii (by decide)))
      cases hft : f.type with
      | nil => exact .ok .nil
      | name t =>
        rw [hft] at h3
        exact .bind (R := fun _ => True) (fun _ _ => trivial) fun k _ => .ite (legible_underlyingText henv hh t h3)
          (.ok (legible_show henv hh (a := .typeName t) h3).1)
      | spec r =>
        refine .bind (.deref fun t ht => hh.types r t ht) fun t h4 => .ite (legible_writeUnderlying henv hh fuel t h4.2.2)
          (.bind (legible_typeSymbol hh h4.2.1) fun s hs => .ok (legible_show henv hh (a := .symbol s) hs).1)
    · refine .bind (.concat fun e _ => ?_) fun _ h1 =>
        .ok ((SourceText.append (.ascii (by decide)) h1).append (.ascii (by decide)))
      cases e with
      | embed p => exact .bind (.deref fun f hf => hh.embeds p f hf) fun _ h1 => .ok (legible_embedText h1.1 h1.2)
      | method p => exact .bind (.deref fun f hf => hh.methods p f hf) fun _ h1 => legible_methodText henv.bom h1.1 h1.2.1 h1.2.2
    · exact .bind (sourceText_type henv.bom _ ht) fun _ h1 =>
        .ok ((SourceText.append (.ascii (by decide)) h1).append (.ascii (by decide)))

theorem legible_typeText (henv : env.Plain h) (hh : h.Legible) (fuel : Nat) {t : TypeSpec} (h1 : SourceText t.comment)
    (h2 : SourceText t.name) (h3 : t.underlying.Legible) (ic : Bool) : Outcome.Is SourceText (t.text env h fuel ic) :=
  .bind (legible_writeUnderlying henv hh fuel t h3) fun _ h4 => .ok (((((SourceText.ite (sourceText_writeComment h1) .nil).append
    h2).append (.ascii (by decide))).append (.ite (.ascii (by decide)) .nil)).append h4)

theorem legible_typeDeclText (henv : env.Plain h) (hh : h.Legible) (fuel : Nat) {d : TypeDecl} (h1 : SourceText d.comment) :
    Outcome.Is SourceText (d.text env h fuel) := by
  rw [TypeDecl.text]
  refine .ite ?_ ?_
  · exact .bind (.concat fun q _ => .bind (.deref fun t ht => hh.types q t ht) fun t h2 =>
      legible_typeText henv hh fuel h2.1 h2.2.1 h2.2.2 _) fun _ h2 =>
      .ok ((((sourceText_writeComment h1).append (.ascii (by decide))).append h2).append (.ascii (by decide)))
  · split
    · exact .panic
    · rename_i q l hl
      exact .bind (.deref fun t ht => hh.types q t ht) fun t h2 => .bind
        (legible_typeText henv hh fuel h2.1 h2.2.1 h2.2.2 _) fun _ h3 =>
        .ok (((sourceText_writeComment h2.1).append (.ascii (by decide))).append h3)

theorem legible_receiver {r : ReceiverSpec} (h1 : SourceText r.name) (h2 : SourceText r.type) : SourceText r.text :=
  (((SourceText.append (.ascii (by decide)) (.ite (h1.append (.ascii (by decide))) .nil)).append
    (.ite (.ascii (by decide)) .nil)).append h2).append (.ascii (by decide))

theorem legible_funcText (henv : env.Plain h) (hh : h.Legible) {f : FuncSpec} {p : Ptr} (hf : h.funcs p = some f)
    (hx : ∀ x ∈ f.code, x.Legible env h) : Outcome.Is SourceText (f.text env h) := by
  obtain ⟨h1, h2, h3, h4⟩ := hh.funcs p f hf
  rw [FuncSpec.text]
  refine .bind (sourceText_signature henv.bom _ h3) fun _ h5 => .bind (legible_codeText henv hh hx) fun _ h6 =>
    .ok ((((((((sourceText_writeComment h1).append (.ascii (by decide))).append ?_).append h2).append h5).append
      (.ascii (by decide))).append h6).append (.ascii (by decide)))
  cases hr : f.receiver with
  | none => exact .nil
  | some r => exact legible_receiver (h4 r hr).1 (h4 r hr).2

theorem legible_elemText (henv : env.Plain h) (hh : h.Legible) (fuel : Nat) {e : FileElem}
    (hx : ∀ x, CodeIn h e x → x.Legible env h) : Outcome.Is SourceText (e.text env h fuel) := by
  cases e with
  | values p =>
    refine .bind (R := fun d => h.valueDecls p = some d) (.deref fun l hl => hl) fun d hd => ?_
    exact legible_valueDeclText henv hh (hh.valueDecls p d hd) fun q c b cb x h1 h2 h3 h4 h5 => hx x (.init hd h1 h2 h3 h4 h5)
  | types p => exact .bind (.deref fun d hd => hh.typeDecls p d hd) fun d h1 => legible_typeDeclText henv hh fuel h1
  | func p =>
    exact .bind (R := fun d => h.funcs p = some d) (.deref fun l hl => hl) fun f hf =>
      legible_funcText henv hh hf fun x h1 => hx x (.func hf h1)

theorem legible_statement (htbl : tbl 0xFEFF = false) {s : ImportSpec} (h1 : SourceText s.packageAlias) :
    SourceText (s.statement tbl) := by
  rw [ImportSpec.statement]
  refine .ite ?_ ?_
  · exact (((SourceText.append (.ascii (by decide)) h1).append (.ascii (by decide))).append (sourceText_quote htbl _)).append
      (.ascii (by decide))
  · exact (SourceText.append (.ascii (by decide)) (sourceText_quote htbl _)).append (.ascii (by decide))

theorem legible_packageClause (htbl : tbl 0xFEFF = false) {f : GoFile} (h1 : SourceText f.packageName) :
    SourceText (f.packageClause tbl) := by
  rw [GoFile.packageClause]
  refine .ite ?_ ?_
  · exact (((SourceText.append (.ascii (by decide)) h1).append (.ascii (by decide))).append (sourceText_quote htbl _)).append
      (.ascii (by decide))
  · exact (SourceText.append (.ascii (by decide)) h1).append (.ascii (by decide))

theorem legible_fileText (henv : env.Plain h) (hh : h.Legible) (fuel : Nat) {p : Ptr} {f : GoFile} (hf : h.files p = some f)
    (hJ : ∀ s ∈ f.imports.importSpecs, SourceText s.packageAlias)
    (hx : ∀ e ∈ f.elements, ∀ x, CodeIn h e x → x.Legible env h) : Outcome.Is SourceText (f.text env h fuel) := by
  obtain ⟨h1, h2, h3⟩ := hh.files p f hf
  rw [GoFile.text]
  refine .bind (.concat fun e he => .bind (legible_elemText henv hh fuel (hx e he)) fun _ h4 =>
    .ok (SourceText.append (.ascii (by decide)) h4)) fun _ h4 => .ok ((((((sourceText_writeComment h1).append
      (.ite (.ascii (by decide)) .nil)).append (sourceText_writeComment h2)).append (legible_packageClause henv.bom h3)).append
      (.ascii (by decide))).append ?_ |>.append h4)
  rw [← List.flatMap_def]
  exact .flatMap fun s hs => legible_statement henv.bom (hJ s hs)

end Gopoet
