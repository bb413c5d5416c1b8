import Verif.Proof.Writable
import Verif.Proof.Fuel
/-! When a qualified file can be written. -/

namespace Gopoet
open Imports

/-- The call returns. -/
def YieldsText (o : Outcome GoString) : Prop := ∃ s, o = .ok s

theorem yields_ok (s : GoString) : YieldsText (.ok s) := ⟨s, rfl⟩
theorem yields_pure (s : GoString) : YieldsText (pure s) := ⟨s, rfl⟩
theorem not_yields_panic : ¬ YieldsText .panic := fun ⟨_, h⟩ => by cases h
theorem not_yields_hang : ¬ YieldsText .hang := fun ⟨_, h⟩ => by cases h

theorem yields_bind {α : Type} {o : Outcome α} {f : α → Outcome GoString} :
    YieldsText (o >>= f) ↔ ∃ a, o = .ok a ∧ YieldsText (f a) := by
  constructor
  · rintro ⟨s, hs⟩
    obtain ⟨a, h1, h2⟩ := bind_eq_ok hs
    exact ⟨a, h1, s, h2⟩
  · rintro ⟨a, rfl, s, hs⟩
    exact ⟨s, hs⟩

theorem yields_bind' {α : Type} {o : Outcome α} {f : α → Outcome GoString} :
    YieldsText (o.bind f) ↔ ∃ a, o = .ok a ∧ YieldsText (f a) := yields_bind

theorem yields_map {o : Outcome GoString} {g : GoString → GoString} :
    YieldsText (o >>= fun a => pure (g a)) ↔ YieldsText o := by
  rw [yields_bind]
  exact exists_congr fun a => and_iff_left (yields_pure _)

theorem yields_deref {α : Type} {m : Ptr → Option α} {p : Ptr} {f : α → Outcome GoString} :
    YieldsText ((deref m p).bind f) ↔ ∃ a, m p = some a ∧ YieldsText (f a) := by
  rw [yields_bind']
  exact exists_congr fun a => and_congr_left fun _ => ⟨deref_eq_ok, deref_some⟩

theorem yields_concat {α} {f : α → Outcome GoString} : ∀ {l : List α}, YieldsText (concatText f l) ↔ ∀ a ∈ l, YieldsText (f a)
  | [] => ⟨fun _ => by simp, fun _ => yields_ok _⟩
  | a :: l => by
    rw [concatText, yields_bind, List.forall_mem_cons, ← yields_concat (l := l)]
    constructor
    · rintro ⟨x, h1, h2⟩
      exact ⟨⟨x, h1⟩, yields_map.1 h2⟩
    · rintro ⟨⟨x, h1⟩, h2⟩
      exact ⟨x, h1, yields_map.2 h2⟩

/-- The element of code can be written. -/
def CodeElem.Shown (env : Env) (h : Heap) : CodeElem → Prop
  | .line _ q => ∃ l, h.args q = some l
  | .templ q => ∃ t, h.templs q = some t ∧ env.exec h t.templ t.data ≠ none

theorem yields_codeElem {env : Env} {h : Heap} {e : CodeElem} : YieldsText (e.text env h) ↔ e.Shown env h := by
  cases e with
  | line f q =>
    rw [CodeElem.text]
    exact yields_deref.trans (exists_congr fun l => and_iff_left (yields_pure _))
  | templ q =>
    rw [CodeElem.text]
    refine yields_deref.trans (exists_congr fun t => and_congr_right fun _ => ?_)
    cases env.exec h t.templ t.data with
    | none => simpa using not_yields_panic
    | some s => simpa using yields_pure s

theorem yields_code {env : Env} {h : Heap} {cb : CodeBlock} : YieldsText (codeText env h cb) ↔ ∀ e ∈ cb, e.Shown env h := by
  rw [codeText, yields_concat]
  simp only [yields_codeElem]

/-! ### Types -/

theorem yields_signature (tbl : Nat → Bool) {s : Signature} (hv : s.valid = true) : YieldsText (signatureToBuffer tbl s) :=
  buffer_okSig tbl hv

theorem yields_method (env : Env) {m : InterfaceMethod} (hv : m.signature.valid = true) : YieldsText (m.text env) := by
  rw [InterfaceMethod.text]
  exact yields_map.2 (yields_signature _ hv)

theorem valid_of_mem {ms : List MethodType} (hv : validMethods ms = true) : ∀ m ∈ ms, m.signature.valid = true := by
  induction ms with
  | nil => simp
  | cons m ms ih =>
    obtain ⟨n, s⟩ := m
    simp only [validMethods, Bool.and_eq_true] at hv
    simpa using ⟨hv.1, ih hv.2⟩

mutual
theorem yields_underlying (env : Env) (h : Heap) : ∀ {t : TypeName}, t.valid = true → YieldsText (underlyingText env h t)
  | .struct fs, hv => by
    rw [underlyingText]
    exact yields_map.2 (yields_fieldTypes env h hv)
  | .interface ms es, hv => by
    rw [underlyingText]
    refine yields_bind.2 ?_
    obtain ⟨a, ha⟩ := (yields_concat (f := fun e => .ok (InterfaceEmbed.text { type := e })) (l := es)).2
      fun e _ => yields_ok _
    refine ⟨a, ha, yields_map.2 (yields_concat.2 fun m hm => yields_method env ?_)⟩
    exact valid_of_mem hv m hm
  | .nil, hv => by simp [TypeName.valid] at hv
  | .basic k, hv => by rw [underlyingText]; exact yields_map.2 (buffer_ok _ hv); all_goals simp
  | .named k, hv => by rw [underlyingText]; exact yields_map.2 (buffer_ok _ hv); all_goals simp
  | .ptr k, hv => by rw [underlyingText]; exact yields_map.2 (buffer_ok _ hv); all_goals simp
  | .slice k, hv => by rw [underlyingText]; exact yields_map.2 (buffer_ok _ hv); all_goals simp
  | .array k n, hv => by rw [underlyingText]; exact yields_map.2 (buffer_ok _ hv); all_goals simp
  | .map k e, hv => by rw [underlyingText]; exact yields_map.2 (buffer_ok _ hv); all_goals simp
  | .chan k d, hv => by rw [underlyingText]; exact yields_map.2 (buffer_ok _ hv); all_goals simp
  | .func k, hv => by rw [underlyingText]; exact yields_map.2 (buffer_ok _ hv); all_goals simp
theorem yields_fieldTypes (env : Env) (h : Heap) : ∀ {fs : List FieldType}, validFields fs = true →
    YieldsText (fieldTypesText env h fs)
  | [], _ => by rw [fieldTypesText]; exact yields_ok _
  | ⟨name, t, tag⟩ :: l, hv => by
    simp only [validFields, Bool.and_eq_true] at hv
    have h2 := yields_fieldTypes env h hv.2
    have h1 : ∀ o : Outcome GoString, YieldsText o → YieldsText (do
        let a ← o
        let b ← fieldTypesText env h l
        pure ((if name ≠ [] then name ++ b! " " else []) ++ a ++ fieldTagText env.isPrint tag ++ b! "\n" ++ b)) := by
      rintro o ⟨s, rfl⟩
      exact yields_map.2 h2
    cases t with
    | struct fs => rw [fieldTypesText]; exact h1 _ (yields_underlying env h hv.1)
    | interface ms es => rw [fieldTypesText]; exact h1 _ (yields_underlying env h hv.1)
    | nil => simp [TypeName.valid] at hv
    | _ => rw [fieldTypesText]; exact h1 _ (yields_ok _); all_goals simp
end

theorem yields_ifaceElem {env : Env} {h : Heap} (hs : h.Sound) {e : IfaceElem} : YieldsText (e.text env h) ↔ e.There h := by
  cases e with
  | embed p => exact yields_deref.trans (exists_congr fun l => and_iff_left (yields_ok _))
  | method p =>
    refine yields_deref.trans (exists_congr fun m => ⟨fun h1 => h1.1, fun hm => ⟨hm, ?_⟩⟩)
    exact yields_method env (hs.methods p m hm)

theorem kind_ok {t : TypeName} (hv : t.valid = true) : ∃ k, t.kind = .ok k := by
  cases t <;> first | exact ⟨_, rfl⟩ | simp [TypeName.valid] at hv

/-- What `BodyRefers` says about one field. -/
def FieldRefers (h : Heap) (q : Ptr) : Prop :=
  ∀ f r s, h.fields q = some f → f.type = .spec r → h.types r = some s →
    (s.name = [] → BodyRefers h r) ∧ (s.name ≠ [] → InFile h s.parent)

theorem bodyRefers_iff {h : Heap} {p : Ptr} {t : TypeSpec} (ht : h.types p = some t) :
    BodyRefers h p ↔ ∀ fs, t.underlying = .struct fs → ∀ q ∈ t.structBody, FieldRefers h q := by
  constructor
  · intro hb
    cases hb with
    | intro h1 h2 h3 =>
      rw [ht] at h1
      obtain rfl := Option.some.inj h1
      exact fun fs hfs q hq f r s hf hr hsn => ⟨h2 fs hfs q hq f r s hf hr hsn, h3 fs hfs q hq f r s hf hr hsn⟩
  · intro hb
    exact .intro ht (fun fs hfs q hq f r s hf hr hsn => (hb fs hfs q hq f r s hf hr hsn).1)
      fun fs hfs q hq f r s hf hr hsn => (hb fs hfs q hq f r s hf hr hsn).2

theorem yields_body {env : Env} {h : Heap} (hs : h.Sound) : ∀ {n : Nat} {p : Ptr} {t : TypeSpec}, EndsIn h n p →
    h.types p = some t → (YieldsText (writeUnderlying env h n t) ↔ BodyRefers h p)
  | 0, _, _, hp, _ => hp.elim
  | n + 1, p, t, ⟨t', h1, h2, h3⟩, ht => by
    rw [ht] at h1
    obtain rfl := Option.some.inj h1
    rw [bodyRefers_iff ht, writeUnderlying]
    have hv := hs.types p t ht
    cases hu : t.underlying with
    | nil => rw [hu] at hv; simp [TypeName.valid] at hv
    | struct fs =>
      dsimp only
      rw [yields_map, yields_concat]
      constructor
      · intro hq fs' _ q hqm f r s hf hr hs'
        have := hq q hqm
        rw [yields_deref] at this
        obtain ⟨f', hf', hsh⟩ := this
        rw [hf] at hf'
        obtain rfl := Option.some.inj hf'
        rw [FieldSpec.text, yields_map, hr, fieldTypeText] at hsh
        obtain ⟨t2, ht2, hsh⟩ := yields_bind.1 hsh
        rw [deref_some hs'] at ht2
        cases ht2
        obtain ⟨f2, hf2, he⟩ := h2 q hqm
        rw [hf] at hf2
        obtain rfl := Option.some.inj hf2
        refine ⟨fun hn => ?_, fun hn => ?_⟩
        · rw [if_pos hn] at hsh
          exact (yields_body hs (he r hr) hs').1 hsh
        · rw [if_neg hn] at hsh
          obtain ⟨sy, hsy, -⟩ := yields_bind.1 hsh
          exact (typeSymbol_iff.1 ⟨sy, hsy⟩).2
      · intro hq q hqm
        obtain ⟨f, hf, he⟩ := h2 q hqm
        rw [yields_deref]
        refine ⟨f, hf, ?_⟩
        rw [FieldSpec.text, yields_map]
        cases hft : f.type with
        | nil => exact yields_ok _
        | name t0 =>
          have hv0 := hs.fields q f t0 hf hft
          obtain ⟨k, hk⟩ := kind_ok hv0
          rw [fieldTypeText, yields_bind]
          refine ⟨k, hk, ?_⟩
          split
          · exact yields_underlying env h hv0
          · exact yields_pure _
        | spec r =>
          rw [fieldTypeText, yields_bind]
          have hend := he r hft
          cases n with
          | zero => exact hend.elim
          | succ n =>
            obtain ⟨s, hs', -⟩ := id hend
            refine ⟨s, deref_some hs', ?_⟩
            have h4 := hq fs rfl q hqm f r s hf hft hs'
            split
            · rename_i hn
              exact (yields_body hs hend hs').2 (h4.1 hn)
            · rename_i hn
              obtain ⟨sy, hsy⟩ := (typeSymbol_iff (h := h)).2 ⟨hn, h4.2 hn⟩
              exact yields_bind.2 ⟨sy, hsy, yields_pure _⟩
    | interface ms es =>
      dsimp only
      rw [yields_map, yields_concat]
      exact ⟨fun _ fs hfs => (by cases hfs), fun _ e he => (yields_ifaceElem hs).2 (h3 e he)⟩
    | _ =>
      rw [hu] at hv
      dsimp only
      exact ⟨fun _ fs hfs => (by cases hfs), fun _ => yields_map.2 (buffer_ok _ hv)⟩

theorem yields_type {env : Env} {h : Heap} (hs : h.Sound) {n : Nat} {p : Ptr} {t : TypeSpec} (he : EndsIn h n p)
    (ht : h.types p = some t) (c : Bool) : YieldsText (t.text env h n c) ↔ BodyRefers h p := by
  rw [TypeSpec.text]
  exact yields_map.trans (yields_body hs he ht)

/-! ### Values -/

theorem yields_value {env : Env} {h : Heap} {c : ValueSpec} {b : Bool} :
    YieldsText (c.text env h b) ↔ ∀ q, c.init = some q → ∃ cb, h.blocks q = some cb ∧ ∀ e ∈ cb, e.Shown env h := by
  rw [ValueSpec.text, yields_map]
  cases c.init with
  | none => simpa using yields_ok _
  | some q =>
    simp only [Option.some.injEq, forall_eq']
    rw [yields_deref]
    refine exists_congr fun cb => and_congr_right fun _ => ?_
    rw [yields_bind', ← yields_code]
    exact exists_congr fun s => and_iff_left (yields_ok _)

/-! ### Elements -/

theorem shown_of {env : Env} {h : Heap} {e : CodeElem} (hu : e.Usable h)
    (hx : ∀ q t, e = .templ q → h.templs q = some t → env.exec h t.templ t.data ≠ none) : e.Shown env h := by
  cases e with
  | line f q => obtain ⟨l, hl, -⟩ := hu; exact ⟨l, hl⟩
  | templ q => obtain ⟨t, ht⟩ := hu; exact ⟨t, ht, hx q t rfl ht⟩

theorem executes_of {env : Env} {h : Heap} {q : Ptr} {t : Templ} (hs : CodeElem.Shown env h (.templ q))
    (ht : h.templs q = some t) : env.exec h t.templ t.data ≠ none := by
  obtain ⟨t', h1, h2⟩ := hs
  rw [ht] at h1
  obtain rfl := Option.some.inj h1
  exact h2

theorem yields_fileElem {env : Env} {h : Heap} (hs : h.Sound) {n : Nat} {e : FileElem} (hu : e.UsableIn h n) :
    YieldsText (e.text env h n) ↔ e.Writable h ∧ e.Executes env h := by
  cases e with
  | values p =>
    obtain ⟨d, hd, hv⟩ := hu
    rw [FileElem.text, yields_deref]
    -- each value
    have hval : ∀ q ∈ d.specs, ∀ b, YieldsText ((deref h.values q).bind fun c => c.text env h b) ↔
        ∀ c i cb x t, h.values q = some c → c.init = some i → h.blocks i = some cb → CodeElem.templ x ∈ cb →
          h.templs x = some t → env.exec h t.templ t.data ≠ none := by
      intro q hq b
      obtain ⟨c, hc, -, hi⟩ := hv q hq
      rw [yields_deref]
      constructor
      · rintro ⟨c', hc', hsh⟩ c2 i cb x t hc2 hci hcb hx ht
        rw [hc'] at hc2
        obtain rfl := Option.some.inj hc2
        obtain ⟨cb', h1, h2⟩ := yields_value.1 hsh i hci
        rw [h1] at hcb
        obtain rfl := Option.some.inj hcb
        exact executes_of (h2 _ hx) ht
      · intro h1
        refine ⟨c, hc, yields_value.2 fun i hci => ?_⟩
        obtain ⟨cb, hcb, hue⟩ := hi i hci
        exact ⟨cb, hcb, fun e he => shown_of (hue e he) fun x t hx ht => h1 c i cb x t hc hci hcb (hx ▸ he) ht⟩
    have hex : FileElem.Executes env h (.values p) ↔ ∀ q ∈ d.specs, ∀ c i cb x t, h.values q = some c →
        c.init = some i → h.blocks i = some cb → CodeElem.templ x ∈ cb →
          h.templs x = some t → env.exec h t.templ t.data ≠ none := by
      constructor
      · intro h1 q hq c i cb x t hc hci hcb hx ht
        exact h1 x t (.init hd hq hc hci hcb hx) ht
      · intro h1 x t hin ht
        cases hin with
        | init h2 h3 h4 h5 h6 h7 =>
          rw [hd] at h2
          obtain rfl := Option.some.inj h2
          exact h1 _ h3 _ _ _ _ _ h4 h5 h6 h7 ht
    rw [hex]
    have hwr : FileElem.Writable h (.values p) ↔ (d.specs ≠ [] ∨ d.comment ≠ []) := by
      constructor
      · rintro ⟨d', hd', h1⟩
        rw [hd] at hd'
        obtain rfl := Option.some.inj hd'
        exact h1
      · exact fun h1 => ⟨d, hd, h1⟩
    rw [hwr]
    have htext : YieldsText (d.text env h) ↔ (d.specs ≠ [] ∨ d.comment ≠ []) ∧
        ∀ q ∈ d.specs, ∃ b, YieldsText ((deref h.values q).bind fun c => c.text env h b) := by
      rw [ValueDecl.text]
      split
      · rename_i hc
        rw [yields_map, yields_concat]
        constructor
        · intro h1
          refine ⟨?_, fun q hq => ⟨true, h1 q hq⟩⟩
          rcases hc with hc | hc
          · exact .inl fun he => by rw [he] at hc; simp at hc
          · exact .inr hc
        · rintro ⟨-, h1⟩ q hq
          obtain ⟨b, hb⟩ := h1 q hq
          rw [hval q hq b] at hb
          exact (hval q hq true).2 hb
      · rename_i hc
        rw [not_or, not_lt, not_not] at hc
        rcases hsp : d.specs with _ | ⟨q, _ | ⟨q2, l⟩⟩
        · simpa [hc.2] using not_yields_panic
        · simp only [List.mem_singleton, forall_eq]
          constructor
          · intro h1
            obtain ⟨c, hc1, h2⟩ := yields_bind.1 h1
            exact ⟨.inl (by simp), false, yields_bind'.2 ⟨c, hc1, yields_map.1 h2⟩⟩
          · rintro ⟨-, b, hb⟩
            rw [hval q (by rw [hsp]; simp) b, ← hval q (by rw [hsp]; simp) false] at hb
            obtain ⟨c, hc1, h2⟩ := yields_bind'.1 hb
            exact yields_bind.2 ⟨c, hc1, yields_map.2 h2⟩
        · rw [hsp] at hc; simp at hc
    constructor
    · rintro ⟨d', hd', h1⟩
      rw [hd] at hd'
      obtain rfl := Option.some.inj hd'
      obtain ⟨h2, h3⟩ := htext.1 h1
      refine ⟨h2, fun q hq => ?_⟩
      obtain ⟨b, hb⟩ := h3 q hq
      exact (hval q hq b).1 hb
    · rintro ⟨h1, h2⟩
      exact ⟨d, hd, htext.2 ⟨h1, fun q hq => ⟨true, (hval q hq true).2 (h2 q hq)⟩⟩⟩
  | types p =>
    obtain ⟨d, hd, hv⟩ := hu
    rw [FileElem.text, yields_deref]
    have hex : FileElem.Executes env h (.types p) := fun q t hin => by cases hin
    have htyp : ∀ q ∈ d.types, ∀ b, YieldsText ((deref h.types q).bind fun t => t.text env h n b) ↔ BodyRefers h q := by
      intro q hq b
      have hend := hv q hq
      cases n with
      | zero => exact hend.elim
      | succ n =>
        obtain ⟨t, ht, -⟩ := id hend
        rw [yields_deref, ← yields_type hs hend ht b]
        exact ⟨fun ⟨t', ht', h1⟩ => by rw [ht] at ht'; cases ht'; exact h1, fun h1 => ⟨t, ht, h1⟩⟩
    have hwr : FileElem.Writable h (.types p) ↔ (d.types ≠ [] ∨ d.comment ≠ []) ∧ ∀ q ∈ d.types, BodyRefers h q := by
      constructor
      · rintro ⟨d', hd', h1⟩
        rw [hd] at hd'
        obtain rfl := Option.some.inj hd'
        exact h1
      · exact fun h1 => ⟨d, hd, h1⟩
    rw [hwr, and_iff_left hex]
    have htext : YieldsText (d.text env h n) ↔ (d.types ≠ [] ∨ d.comment ≠ []) ∧ ∀ q ∈ d.types, BodyRefers h q := by
      rw [TypeDecl.text]
      split
      · rename_i hc
        rw [yields_map, yields_concat]
        constructor
        · intro h1
          refine ⟨?_, fun q hq => (htyp q hq true).1 (h1 q hq)⟩
          rcases hc with hc | hc
          · exact .inl fun he => by rw [he] at hc; simp at hc
          · exact .inr hc
        · rintro ⟨-, h1⟩ q hq
          exact (htyp q hq true).2 (h1 q hq)
      · rename_i hc
        rw [not_or, not_lt, not_not] at hc
        rcases hsp : d.types with _ | ⟨q, _ | ⟨q2, l⟩⟩
        · simpa [hc.2] using not_yields_panic
        · simp only [List.mem_singleton, forall_eq]
          rw [← htyp q (by rw [hsp]; simp) false]
          constructor
          · intro h1
            obtain ⟨c, hc1, h2⟩ := yields_bind.1 h1
            exact ⟨.inl (by simp), yields_bind'.2 ⟨c, hc1, yields_map.1 h2⟩⟩
          · rintro ⟨-, hb⟩
            obtain ⟨c, hc1, h2⟩ := yields_bind'.1 hb
            exact yields_bind.2 ⟨c, hc1, yields_map.2 h2⟩
        · rw [hsp] at hc; simp at hc
    constructor
    · rintro ⟨d', hd', h1⟩
      rw [hd] at hd'
      obtain rfl := Option.some.inj hd'
      exact htext.1 h1
    · exact fun h1 => ⟨d, hd, htext.2 h1⟩
  | func p =>
    obtain ⟨f, hf, hc⟩ := hu
    rw [FileElem.text, yields_deref]
    have hex : FileElem.Executes env h (.func p) ↔ ∀ e ∈ f.code, e.Shown env h := by
      constructor
      · intro h1 e he
        exact shown_of (hc e he) fun q t hq ht => h1 q t (.func hf (hq ▸ he)) ht
      · intro h1 q t hin ht
        cases hin with
        | func h2 h3 =>
          rw [hf] at h2
          obtain rfl := Option.some.inj h2
          exact executes_of (h1 _ h3) ht
    have htext : YieldsText (f.text env h) ↔ ∀ e ∈ f.code, e.Shown env h := by
      rw [FuncSpec.text, yields_bind, ← yields_code]
      obtain ⟨sg, hsg⟩ := yields_signature env.isPrint (hs.funcs p f hf)
      constructor
      · rintro ⟨s, -, h1⟩
        exact yields_map.1 h1
      · intro h1
        exact ⟨sg, hsg, yields_map.2 h1⟩
    rw [hex, ← htext]
    constructor
    · rintro ⟨f', hf', h1⟩
      rw [hf] at hf'
      obtain rfl := Option.some.inj hf'
      exact ⟨trivial, h1⟩
    · exact fun h1 => ⟨f, hf, h1.2⟩

theorem yields_file {env : Env} {h : Heap} (hs : h.Sound) {n : Nat} {f : GoFile} (hu : ∀ e ∈ f.elements, e.UsableIn h n) :
    YieldsText (f.text env h n) ↔ ∀ e ∈ f.elements, e.Writable h ∧ e.Executes env h := by
  rw [GoFile.text, yields_map, yields_concat]
  refine forall₂_congr fun e he => ?_
  rw [yields_bind', ← yields_fileElem hs (hu e he)]
  exact exists_congr fun s => and_iff_left (yields_ok _)

/-! ### From the file before to the file after -/

theorem map_some_of {α β} {o o' : Option α} {g : α → β} (h : o'.map g = o.map g) {x : α} (hx : o = some x) :
    ∃ x', o' = some x' ∧ g x' = g x := by
  subst hx
  cases o' with
  | none => simp at h
  | some x' => exact ⟨x', rfl, by simpa using h⟩

theorem SameFrame.inFile {h h' : Heap} (s : SameFrame h h') {o : Option Ptr} (ho : InFile h o) : InFile h' o := by
  obtain ⟨p, f, rfl, hf⟩ := ho
  obtain ⟨f', hf', -⟩ := map_some_of (s.files p) hf
  exact ⟨p, f', rfl, hf'⟩

theorem SameFrame.bodyRefers {h h' : Heap} (s : SameFrame h h') {p : Ptr} (hb : BodyRefers h p) : BodyRefers h' p := by
  induction hb with
  | @intro p t h1 h2 h3 ih =>
    obtain ⟨t', ht', he⟩ := map_some_of (s.bodies p) h1
    simp only [Prod.mk.injEq] at he
    rw [bodyRefers_iff ht']
    intro fs hfs q hq f r sp hf hr hsp
    rw [he.1] at hq
    obtain ⟨fs0, hfs0⟩ := isStruct_iff.1 (he.2.2.symm.trans (isStruct_iff.2 ⟨fs, hfs⟩))
    obtain ⟨f0, hf0, hef⟩ := map_some_of (s.symm.fieldSpecs q) hf
    have hr0 : f0.type = .spec r := specOf_eq.1 (hef.trans (specOf_eq.2 hr))
    obtain ⟨sp0, hsp0, hes⟩ := map_some_of (s.symm.types r) hsp
    simp only [Prod.mk.injEq] at hes
    refine ⟨fun hn => ih fs0 hfs0 q hq f0 r sp0 hf0 hr0 hsp0 (hes.1.trans hn), fun hn => ?_⟩
    have := h3 fs0 hfs0 q hq f0 r sp0 hf0 hr0 hsp0 (by rw [hes.1]; exact hn)
    rw [hes.2] at this
    exact s.inFile this

theorem SameFrame.writable {h h' : Heap} (s : SameFrame h h') (e : FileElem) : e.Writable h' ↔ e.Writable h := by
  have h1 : ∀ {h h' : Heap}, SameFrame h h' → e.Writable h → e.Writable h' := by
    intro h h' s hw
    cases e with
    | values p => obtain ⟨d, hd, h1⟩ := hw; exact ⟨d, by rw [s.valueDecls]; exact hd, h1⟩
    | types p =>
      obtain ⟨d, hd, h1, h2⟩ := hw
      exact ⟨d, by rw [s.typeDecls]; exact hd, h1, fun q hq => s.bodyRefers (h2 q hq)⟩
    | func p => trivial
  exact ⟨h1 s.symm, h1 s⟩

theorem SameFrame.templateIn {h h' : Heap} (s : SameFrame h h') {e : FileElem} {q : Ptr} (ht : TemplateIn h e q) :
    TemplateIn h' e q := by
  cases ht with
  | init h1 h2 h3 h4 h5 h6 =>
    obtain ⟨c', hc', he⟩ := map_some_of (s.valueSpecs _) h3
    simp only [Prod.mk.injEq] at he
    exact .init (by rw [s.valueDecls]; exact h1) h2 hc' (he.2.trans h4) (by rw [s.blocks]; exact h5) h6
  | func h1 h2 =>
    obtain ⟨f', hf', he⟩ := map_some_of (s.codes _) h1
    exact .func hf' (by rw [he]; exact h2)

theorem frame_files {h : Heap} {files} (hf : ∀ p, (files p).map (fun f : GoFile => f.package) = (h.files p).map (·.package)) :
    SameFrame h { h with files } :=
  have hn := sameNames_file hf
  ⟨hn, fun _ => rfl, fun _ => rfl, fun _ => rfl, fun _ => rfl, fun _ => rfl, fun _ => rfl, fun q => hn.lineRefers q rfl⟩

theorem sound_files {h : Heap} {files} (hf : ∀ p, (files p).map (fun f : GoFile => f.package) = (h.files p).map (·.package))
    (hs : h.Sound) : ({ h with files } : Heap).Sound :=
  ⟨hs.types, hs.fields, hs.values, hs.methods, hs.funcs, hs.args, fun p t ht => (sameNames_file hf).ready (hs.templs p t ht)⟩

/-- Qualifying a file, seen from outside. -/
theorem qualifyFile_frame {n : Nat} {p : Ptr} {h h' : Heap} {f : GoFile} (hf : h.files p = some f) (hs : h.Sound)
    (hq : qualifyFile n p h = (.ok (), h')) :
    SameFrame h h' ∧ h'.Sound ∧ (∃ i, h'.files p = some { f with imports := i }) ∧ ∀ e ∈ f.elements, e.UsableIn h n := by
  unfold qualifyFile at hq
  rw [hf] at hq
  dsimp only at hq
  obtain ⟨o, h1, i1, hr⟩ : ∃ o h1 i1, QM.forEach (FileElem.qualify n) f.elements h f.imports = (o, h1, i1) :=
    ⟨_, _, _, rfl⟩
  rw [hr] at hq
  dsimp only at hq
  obtain ⟨rfl, rfl⟩ := Prod.mk.inj hq
  have hst := steps_fileElems n f.elements h f.imports
  rw [hr] at hst
  have hfr := hst.frame hs
  have hfl : ∀ q, (upd h1.files p { f with imports := i1 } q).map (fun f : GoFile => f.package) =
      (h1.files q).map (·.package) := by
    intro q
    by_cases hqp : q = p
    · subst hqp
      rw [upd_same, hst.files, hf]
      have := hst.evolves.ext.own
      dsimp only at this
      simp only [Option.map_some, GoFile.package, this]
    · rw [upd_ne _ _ hqp]
  exact ⟨hfr.1.trans (frame_files hfl), sound_files hfl hfr.2, ⟨i1, upd_same _ _ _⟩,
    (done_fileElems n f.elements h f.imports hs).1 ⟨_, _, _, hr⟩⟩

theorem qualifyFile_done {n : Nat} {p : Ptr} {h : Heap} {f : GoFile} (hf : h.files p = some f) (hs : h.Sound)
    (hu : ∀ e ∈ f.elements, e.UsableIn h n) : ∃ h', qualifyFile n p h = (.ok (), h') := by
  obtain ⟨a, h1, i1, hr⟩ := (done_fileElems n f.elements h f.imports hs).2 hu
  unfold qualifyFile
  rw [hf]
  dsimp only
  rw [hr]
  exact ⟨_, rfl⟩

theorem usable_bound {h : Heap} {f : GoFile} (hu : ∀ e ∈ f.elements, e.Usable h) : ∃ n, ∀ e ∈ f.elements, e.UsableIn h n :=
  common_bound (P := fun n e => FileElem.UsableIn h n e) (fun _ _ _ hnm hv => FileElem.UsableIn.mono hnm hv) f.elements
    fun e he => usable_iff.1 (hu e he)

end Gopoet
