import Verif.Proof.ImportsLemmas
import Verif.Proof.TypesLemmas
/-! What qualification of symbols, types and signatures computes. -/

namespace Gopoet

/-- The package name used for a path in state `i` (empty if not registered). -/
def Imports.nameIn (i : Imports) (p : GoString) : GoString :=
  match i.importsByPath.get p with
  | some d => d.packageName
  | none => []

/-- The symbol as it must be written in state `i`. -/
def Imports.symIn (i : Imports) (s : Symbol) : Symbol := s.withPrefix i.pkgPath i.nameIn

/-- The symbol can be written in state `i`: no package, own package, or a registered one. -/
def Covered (i : Imports) (s : Symbol) : Prop :=
  s.isBuiltin ∨ s.package.importPath = i.pkgPath ∨ i.importsByPath.get s.package.importPath ≠ none

instance (i : Imports) (s : Symbol) : Decidable (Covered i s) := by unfold Covered; infer_instance

theorem Ext.covered {i j : Imports} (h : Ext i j) {s : Symbol} (hc : Covered i s) :
    Covered j s := by
  rcases hc with hc | hc | hc
  · exact .inl hc
  · exact .inr (.inl (h.own ▸ hc))
  · refine .inr (.inr ?_)
    cases hg : i.importsByPath.get s.package.importPath with
    | none => exact absurd hg hc
    | some d => rw [h.keeps _ _ hg]; simp

theorem Ext.symIn {i j : Imports} (h : Ext i j) {s : Symbol} (hc : Covered i s) :
    j.symIn s = i.symIn s := by
  unfold Imports.symIn Symbol.withPrefix
  rw [h.own]
  split
  · rfl
  · rename_i hb
    split
    · rfl
    · rename_i ho
      rcases hc with hc | hc | hc
      · exact absurd hc hb
      · exact absurd hc ho
      · cases hg : i.importsByPath.get s.package.importPath with
        | none => exact absurd hg hc
        | some d => simp [Imports.nameIn, h.keeps _ _ hg, hg]

@[simp] theorem trimDot_nil : Imports.trimDot [] = [] := rfl

@[simp] theorem trimDot_dot (q : GoString) : Imports.trimDot (q ++ b! ".") = q := by
  simp [Imports.trimDot, dot]

theorem qualify_builtin {s : Symbol} (h : s.isBuiltin) (r : Bool) (i : Imports) :
    Imports.qualify s r i = (.ok s, i) := by
  have h' : s.package.name = [] ∧ s.package.importPath = [] := h
  rw [Imports.qualify, if_pos h']; rfl

theorem qualify_of_prefix {s : Symbol} (h : ¬ s.isBuiltin) {r : Bool} {i j : Imports} {p : GoString}
    (hp : Imports.prefixForPackage s.package.importPath s.package.name r i = (.ok p, j)) :
    Imports.qualify s r i
      = (.ok { s with package := ⟨s.package.importPath, Imports.trimDot p⟩ }, j) := by
  have h' : ¬ (s.package.name = [] ∧ s.package.importPath = []) := h
  rw [Imports.qualify, if_neg h', IM.bind_ok hp, IM.ite_apply]
  split
  · rfl
  · rename_i hn
    simp only [ne_eq, not_not] at hn
    rw [hn]; rfl

theorem qualify_ok (s : Symbol) (r : Bool) (i : Imports) (hr : r = true ∨ Covered i s) :
    ∃ j, Imports.qualify s r i = (.ok (j.symIn s), j) ∧ Covered j s := by
  by_cases hb : s.isBuiltin
  · refine ⟨i, ?_, .inl hb⟩
    rw [qualify_builtin hb]
    have h' : s.package.name = [] ∧ s.package.importPath = [] := hb
    rw [Imports.symIn, Symbol.withPrefix, if_pos h']
  · have h' : ¬ (s.package.name = [] ∧ s.package.importPath = []) := hb
    by_cases hown : s.package.importPath = i.pkgPath
    · refine ⟨i, ?_, .inr (.inl hown)⟩
      rw [qualify_of_prefix hb (prefixForPackage_own hown)]
      rw [Imports.symIn, Symbol.withPrefix, if_neg h', if_pos hown]
      rfl
    · cases hg : i.importsByPath.get s.package.importPath with
      | some d =>
        refine ⟨i, ?_, .inr (.inr (by simp [hg]))⟩
        rw [qualify_of_prefix hb (prefixForPackage_known hown hg)]
        rw [Imports.symIn, Symbol.withPrefix, if_neg h', if_neg hown]
        simp [Imports.nameIn, hg]
      | none =>
        have hr' : r = true := by
          rcases hr with hr | hr | hr | hr
          · exact hr
          · exact absurd hr hb
          · exact absurd hr hown
          · exact absurd hg hr
        subst hr'
        obtain ⟨q, _, hq⟩ := prefixForPackage_new (n := s.package.name) hown hg
        refine ⟨i.add s.package.importPath q (decide (q ≠ s.package.name)), ?_, .inr (.inr ?_)⟩
        · rw [qualify_of_prefix hb hq]
          rw [Imports.symIn, Symbol.withPrefix, if_neg h', if_neg (by exact hown)]
          simp [Imports.nameIn, Imports.add]
        · simp [Imports.add]

theorem qualify_panic {s : Symbol} {i : Imports} (h : ¬ Covered i s) :
    Imports.qualify s false i = (.panic, i) := by
  simp only [Covered, not_or, ne_eq, not_not] at h
  obtain ⟨hb, ho, hg⟩ := h
  have h' : ¬ (s.package.name = [] ∧ s.package.importPath = []) := hb
  rw [Imports.qualify, if_neg h', IM.bind_panic (prefixForPackage_unknown ho hg)]

/-- Whether replacing symbols by `f` changes one of the list. -/
def anyChanged (f : Symbol → Symbol) (l : List Symbol) : Bool := l.any (fun s => decide (f s ≠ s))

@[simp] theorem anyChanged_append (f : Symbol → Symbol) (l l' : List Symbol) :
    anyChanged f (l ++ l') = (anyChanged f l || anyChanged f l') := by simp [anyChanged]

theorem anyChanged_congr {f g : Symbol → Symbol} {l : List Symbol} (h : ∀ s ∈ l, f s = g s) :
    anyChanged f l = anyChanged g l := by
  induction l with
  | nil => rfl
  | cons a l ih =>
    have ih' := ih (fun s hs => h s (by simp [hs]))
    simp only [anyChanged, List.any_cons] at ih' ⊢
    rw [ih', h a (by simp)]

theorem anyChanged_false {f : Symbol → Symbol} {l : List Symbol} (h : anyChanged f l = false) :
    ∀ s ∈ l, f s = s := by
  intro s hs
  simp only [anyChanged, List.any_eq_false, decide_eq_true_eq, ne_eq, not_not] at h
  exact h s hs

/-- Condition under which qualification does not panic: registering is allowed or nothing needs
to be registered. -/
def CanQualify (r : Bool) (i : Imports) (l : List Symbol) : Prop :=
  r = true ∨ ∀ s ∈ l, Covered i s

theorem CanQualify.mono {r : Bool} {i : Imports} {l l' : List Symbol} (h : CanQualify r i l')
    (hs : ∀ s ∈ l, s ∈ l') : CanQualify r i l := h.imp id (fun h s hl => h s (hs s hl))

theorem CanQualify.ext {r : Bool} {i j : Imports} {l : List Symbol} (h : CanQualify r i l)
    (he : Ext i j) : CanQualify r j l := h.imp id (fun h s hl => he.covered (h s hl))

theorem Runs.ext {α} {P : Package → Prop} {x : IM α} (h : Runs P x) {i j : Imports} {o : Outcome α}
    (hx : x i = (o, j)) : Ext i j := by
  have := (h i).ext
  rw [hx] at this
  exact this

open Imports

theorem qualifySymbols_ok (r : Bool) : ∀ (l : List Symbol) (i : Imports), CanQualify r i l →
    ∃ j, qualifySymbols r l i = (.ok (l.map j.symIn, anyChanged j.symIn l), j) ∧
      ∀ s ∈ l, Covered j s
  | [], i, _ => ⟨i, rfl, by simp⟩
  | s :: l, i, h => by
    obtain ⟨j, hj, hcj⟩ := qualify_ok s r i (h.imp id (fun h => h s (by simp)))
    have hij := (runs_qualify s r).ext hj
    obtain ⟨k, hk, hck⟩ := qualifySymbols_ok r l j ((h.mono (by simp_all)).ext hij)
    have hjk := (runs_qualifySymbols r l).ext hk
    refine ⟨k, ?_, ?_⟩
    · rw [qualifySymbols, IM.bind_ok hj, IM.bind_ok hk]
      simp [anyChanged, hjk.symIn hcj]
    · intro x hx
      rcases List.mem_cons.1 hx with rfl | hx
      · exact hjk.covered hcj
      · exact hck x hx

mutual
theorem qualifyType_ok (r : Bool) : ∀ (t : TypeName) (i : Imports), t.valid = true →
    CanQualify r i t.symbols →
    ∃ j, qualifyType r t i = (.ok (t.mapSymbols j.symIn, anyChanged j.symIn t.symbols), j) ∧
      ∀ s ∈ t.symbols, Covered j s
  | .nil, _, hv, _ => by simp [TypeName.valid] at hv
  | .basic k, i, _, _ => ⟨i, by rw [qualifyType]; rfl, by simp [TypeName.symbols]⟩
  | .named s, i, _, h => by
    obtain ⟨j, hj, hcj⟩ := qualify_ok s r i (h.imp id (fun h => h s (by simp [TypeName.symbols])))
    refine ⟨j, ?_, by simp [TypeName.symbols, hcj]⟩
    rw [qualifyType, IM.bind_ok hj]
    by_cases hs : j.symIn s = s
    · simp [hs, anyChanged, TypeName.symbols, TypeName.mapSymbols]
    · simp [hs, anyChanged, TypeName.symbols, TypeName.mapSymbols, namedType]
  | .ptr e, i, hv, h => by
    obtain ⟨j, hj, hcj⟩ := qualifyType_ok r e i hv h
    refine ⟨j, ?_, hcj⟩
    rw [qualifyType, IM.bind_ok hj]
    have hn := not_isNil_of_valid ((valid_mapSymbols j.symIn e).trans hv)
    cases hc : anyChanged j.symIn e.symbols with
    | true => simp [IM.bind_apply, pointerType, hn, TypeName.symbols, hc, TypeName.mapSymbols]
    | false =>
      simp [TypeName.symbols, hc, TypeName.mapSymbols, mapSymbols_eq_self e (anyChanged_false hc)]
  | .slice e, i, hv, h => by
    obtain ⟨j, hj, hcj⟩ := qualifyType_ok r e i hv h
    refine ⟨j, ?_, hcj⟩
    rw [qualifyType, IM.bind_ok hj]
    have hn := not_isNil_of_valid ((valid_mapSymbols j.symIn e).trans hv)
    cases hc : anyChanged j.symIn e.symbols with
    | true => simp [IM.bind_apply, sliceType, hn, TypeName.symbols, hc, TypeName.mapSymbols]
    | false =>
      simp [TypeName.symbols, hc, TypeName.mapSymbols, mapSymbols_eq_self e (anyChanged_false hc)]
  | .array e n, i, hv, h => by
    simp only [TypeName.valid, Bool.and_eq_true, decide_eq_true_eq] at hv
    obtain ⟨j, hj, hcj⟩ := qualifyType_ok r e i hv.1 h
    refine ⟨j, ?_, hcj⟩
    rw [qualifyType, IM.bind_ok hj]
    have hn := not_isNil_of_valid ((valid_mapSymbols j.symIn e).trans hv.1)
    have hl : ¬ n < 0 := by omega
    cases hc : anyChanged j.symIn e.symbols with
    | true => simp [IM.bind_apply, arrayType, hn, hl, TypeName.symbols, hc, TypeName.mapSymbols]
    | false =>
      simp [TypeName.symbols, hc, TypeName.mapSymbols, mapSymbols_eq_self e (anyChanged_false hc)]
  | .map e k, i, hv, h => by
    simp only [TypeName.valid, Bool.and_eq_true] at hv
    simp only [TypeName.symbols] at h ⊢
    obtain ⟨j, hj, hcj⟩ := qualifyType_ok r k i hv.2 (h.mono (by simp_all))
    have hij := (runs_qualifyType r k).ext hj
    obtain ⟨l, hl, hcl⟩ := qualifyType_ok r e j hv.1 ((h.mono (by simp_all)).ext hij)
    have hjl := (runs_qualifyType r e).ext hl
    have hk : ∀ s ∈ k.symbols, l.symIn s = j.symIn s := fun s hs => hjl.symIn (hcj s hs)
    refine ⟨l, ?_, ?_⟩
    · rw [qualifyType, IM.bind_ok hj]
      show (qualifyType r e >>= _) j = _
      rw [IM.bind_ok hl]
      have hn := not_isNil_of_valid ((valid_mapSymbols l.symIn e).trans hv.1)
      have hn' := not_isNil_of_valid ((valid_mapSymbols l.symIn k).trans hv.2)
      rw [← mapSymbols_congr k hk, ← anyChanged_congr hk, anyChanged_append]
      cases hk' : anyChanged l.symIn k.symbols <;> cases he' : anyChanged l.symIn e.symbols
      · simp [TypeName.mapSymbols, mapSymbols_eq_self e (anyChanged_false he'),
          mapSymbols_eq_self k (anyChanged_false hk')]
      all_goals simp [IM.bind_apply, mapType, hn, hn', TypeName.mapSymbols]
    · intro s hs
      rcases List.mem_append.1 hs with hs | hs
      · exact hjl.covered (hcj s hs)
      · exact hcl s hs
  | .chan e d, i, hv, h => by
    have hv' := hv
    simp only [TypeName.valid, Bool.and_eq_true] at hv'
    obtain ⟨j, hj, hcj⟩ := qualifyType_ok r e i hv'.1 h
    refine ⟨j, ?_, hcj⟩
    rw [qualifyType, IM.bind_ok hj]
    have hch : channelType (e.mapSymbols j.symIn) d = .ok (.chan (e.mapSymbols j.symIn) d) :=
      channelType_valid (by have := valid_mapSymbols j.symIn (.chan e d); rw [hv] at this; exact this)
    cases hc : anyChanged j.symIn e.symbols with
    | true => simp [IM.bind_apply, hch, TypeName.symbols, hc, TypeName.mapSymbols]
    | false =>
      simp [TypeName.symbols, hc, TypeName.mapSymbols, mapSymbols_eq_self e (anyChanged_false hc)]
  | .func s, i, hv, h => by
    obtain ⟨j, hj, hcj⟩ := qualifySignature_ok r s i hv h
    refine ⟨j, ?_, hcj⟩
    rw [qualifyType, IM.bind_ok hj]
    have hf := funcTypeFromSig_valid ((valid_mapSymbols_sig j.symIn s).trans hv)
    cases hc : anyChanged j.symIn s.symbols with
    | true => simp [IM.bind_apply, hf, TypeName.symbols, hc, TypeName.mapSymbols]
    | false =>
      simp [TypeName.symbols, hc, TypeName.mapSymbols,
        mapSymbols_eq_self_sig s (anyChanged_false hc)]
  | .struct fs, i, hv, h => by
    obtain ⟨j, hj, hcj⟩ := qualifyFields_ok r fs i hv h
    refine ⟨j, ?_, hcj⟩
    rw [qualifyType, IM.bind_ok hj]
    cases hc : anyChanged j.symIn (symbolsFields fs) with
    | true => simp [TypeName.symbols, hc, TypeName.mapSymbols, structType]
    | false =>
      have := mapSymbols_eq_self (.struct fs) (anyChanged_false hc)
      simp only [TypeName.symbols, hc, this]
      rfl
  | .interface ms es, i, hv, h => by
    simp only [TypeName.symbols] at h ⊢
    obtain ⟨j, hj, hcj⟩ := qualifySymbols_ok r es i (h.mono (by simp_all))
    have hij := (runs_qualifySymbols r es).ext hj
    obtain ⟨l, hl, hcl⟩ := qualifyMethods_ok r ms j hv ((h.mono (by simp_all)).ext hij)
    have hjl := (runs_qualifyMethods r ms).ext hl
    have he : ∀ s ∈ es, l.symIn s = j.symIn s := fun s hs => hjl.symIn (hcj s hs)
    refine ⟨l, ?_, ?_⟩
    · rw [qualifyType, IM.bind_ok hj]
      show (qualifyMethods r ms >>= _) j = _
      rw [IM.bind_ok hl]
      rw [← List.map_congr_left he, ← anyChanged_congr he, anyChanged_append]
      cases hc : anyChanged l.symIn es || anyChanged l.symIn (symbolsMethods ms) with
      | true => simp [hc, interfaceType, TypeName.mapSymbols]
      | false =>
        have := mapSymbols_eq_self (.interface ms es)
          (anyChanged_false (l := es ++ symbolsMethods ms) (by rw [anyChanged_append]; exact hc))
        rw [this]
        simp [hc]
    · intro s hs
      rcases List.mem_append.1 hs with hs | hs
      · exact hjl.covered (hcj s hs)
      · exact hcl s hs
theorem qualifySignature_ok (r : Bool) : ∀ (t : Signature) (i : Imports), t.valid = true →
    CanQualify r i t.symbols →
    ∃ j, qualifySignature r t i = (.ok (t.mapSymbols j.symIn, anyChanged j.symIn t.symbols), j) ∧
      ∀ s ∈ t.symbols, Covered j s
  | ⟨args, results, v⟩, i, hv, h => by
    simp only [Signature.valid, Bool.and_eq_true] at hv
    simp only [Signature.symbols] at h ⊢
    obtain ⟨j, hj, hcj⟩ := qualifyArgs_ok r args i hv.1.1 (h.mono (by simp_all))
    have hij := (runs_qualifyArgs r args).ext hj
    obtain ⟨l, hl, hcl⟩ := qualifyArgs_ok r results j hv.1.2 ((h.mono (by simp_all)).ext hij)
    have hjl := (runs_qualifyArgs r results).ext hl
    have he : ∀ s ∈ symbolsArgs args, l.symIn s = j.symIn s := fun s hs => hjl.symIn (hcj s hs)
    refine ⟨l, ?_, ?_⟩
    · rw [qualifySignature, IM.bind_ok hj]
      show (qualifyArgs r results >>= _) j = _
      rw [IM.bind_ok hl]
      rw [← mapSymbols_congr_args args he, ← anyChanged_congr he, anyChanged_append]
      cases hc : anyChanged l.symIn (symbolsArgs args) || anyChanged l.symIn (symbolsArgs results) with
      | true => simp [hc, Signature.mapSymbols]
      | false =>
        have := mapSymbols_eq_self_sig ⟨args, results, v⟩
          (anyChanged_false (l := symbolsArgs args ++ symbolsArgs results)
            (by rw [anyChanged_append]; exact hc))
        rw [this]
        simp [hc]
    · intro s hs
      rcases List.mem_append.1 hs with hs | hs
      · exact hjl.covered (hcj s hs)
      · exact hcl s hs
theorem qualifyArgs_ok (r : Bool) : ∀ (t : List ArgType) (i : Imports), validArgs t = true →
    CanQualify r i (symbolsArgs t) →
    ∃ j, qualifyArgs r t i = (.ok (mapSymbolsArgs j.symIn t, anyChanged j.symIn (symbolsArgs t)), j) ∧
      ∀ s ∈ symbolsArgs t, Covered j s
  | [], i, _, _ => ⟨i, by rw [qualifyArgs]; rfl, by simp [symbolsArgs]⟩
  | ⟨n, t⟩ :: ts, i, hv, h => by
    simp only [validArgs, Bool.and_eq_true] at hv
    simp only [symbolsArgs] at h ⊢
    obtain ⟨j, hj, hcj⟩ := qualifyType_ok r t i hv.1 (h.mono (by simp_all))
    have hij := (runs_qualifyType r t).ext hj
    obtain ⟨l, hl, hcl⟩ := qualifyArgs_ok r ts j hv.2 ((h.mono (by simp_all)).ext hij)
    have hjl := (runs_qualifyArgs r ts).ext hl
    have he : ∀ s ∈ t.symbols, l.symIn s = j.symIn s := fun s hs => hjl.symIn (hcj s hs)
    refine ⟨l, ?_, ?_⟩
    · rw [qualifyArgs, IM.bind_ok hj]
      show (qualifyArgs r ts >>= _) j = _
      rw [IM.bind_ok hl]
      simp [← mapSymbols_congr t he, ← anyChanged_congr he, mapSymbolsArgs]
    · intro s hs
      rcases List.mem_append.1 hs with hs | hs
      · exact hjl.covered (hcj s hs)
      · exact hcl s hs
theorem qualifyFields_ok (r : Bool) : ∀ (t : List FieldType) (i : Imports), validFields t = true →
    CanQualify r i (symbolsFields t) →
    ∃ j, qualifyFields r t i
        = (.ok (mapSymbolsFields j.symIn t, anyChanged j.symIn (symbolsFields t)), j) ∧
      ∀ s ∈ symbolsFields t, Covered j s
  | [], i, _, _ => ⟨i, by rw [qualifyFields]; rfl, by simp [symbolsFields]⟩
  | ⟨n, t, tag⟩ :: ts, i, hv, h => by
    simp only [validFields, Bool.and_eq_true] at hv
    simp only [symbolsFields] at h ⊢
    obtain ⟨j, hj, hcj⟩ := qualifyType_ok r t i hv.1 (h.mono (by simp_all))
    have hij := (runs_qualifyType r t).ext hj
    obtain ⟨l, hl, hcl⟩ := qualifyFields_ok r ts j hv.2 ((h.mono (by simp_all)).ext hij)
    have hjl := (runs_qualifyFields r ts).ext hl
    have he : ∀ s ∈ t.symbols, l.symIn s = j.symIn s := fun s hs => hjl.symIn (hcj s hs)
    refine ⟨l, ?_, ?_⟩
    · rw [qualifyFields, IM.bind_ok hj]
      show (qualifyFields r ts >>= _) j = _
      rw [IM.bind_ok hl]
      simp [← mapSymbols_congr t he, ← anyChanged_congr he, mapSymbolsFields]
    · intro s hs
      rcases List.mem_append.1 hs with hs | hs
      · exact hjl.covered (hcj s hs)
      · exact hcl s hs
theorem qualifyMethods_ok (r : Bool) : ∀ (t : List MethodType) (i : Imports),
    validMethods t = true → CanQualify r i (symbolsMethods t) →
    ∃ j, qualifyMethods r t i
        = (.ok (mapSymbolsMethods j.symIn t, anyChanged j.symIn (symbolsMethods t)), j) ∧
      ∀ s ∈ symbolsMethods t, Covered j s
  | [], i, _, _ => ⟨i, by rw [qualifyMethods]; rfl, by simp [symbolsMethods]⟩
  | ⟨n, t⟩ :: ts, i, hv, h => by
    simp only [validMethods, Bool.and_eq_true] at hv
    simp only [symbolsMethods] at h ⊢
    obtain ⟨j, hj, hcj⟩ := qualifySignature_ok r t i hv.1 (h.mono (by simp_all))
    have hij := (runs_qualifySignature r t).ext hj
    obtain ⟨l, hl, hcl⟩ := qualifyMethods_ok r ts j hv.2 ((h.mono (by simp_all)).ext hij)
    have hjl := (runs_qualifyMethods r ts).ext hl
    have he : ∀ s ∈ t.symbols, l.symIn s = j.symIn s := fun s hs => hjl.symIn (hcj s hs)
    refine ⟨l, ?_, ?_⟩
    · rw [qualifyMethods, IM.bind_ok hj]
      show (qualifyMethods r ts >>= _) j = _
      rw [IM.bind_ok hl]
      simp [← mapSymbols_congr_sig t he, ← anyChanged_congr he, mapSymbolsMethods]
    · intro s hs
      rcases List.mem_append.1 hs with hs | hs
      · exact hjl.covered (hcj s hs)
      · exact hcl s hs
end

/-! ## Lookups -/

theorem not_pkgsOf_false (l : List Symbol) : ∀ p, ¬ pkgsOf false l p := by
  rintro p ⟨h, _⟩; exact absurd h (by simp)

theorem qualifyType_false_state (t : TypeName) (i : Imports) : (qualifyType false t i).2 = i :=
  (runs_qualifyType false t i).eq_of_false (not_pkgsOf_false _)

theorem qualifySignature_false_state (t : Signature) (i : Imports) :
    (qualifySignature false t i).2 = i :=
  (runs_qualifySignature false t i).eq_of_false (not_pkgsOf_false _)

theorem qualifyType_false_ok {t : TypeName} {i : Imports} (hv : t.valid = true)
    (hc : ∀ s ∈ t.symbols, Covered i s) :
    qualifyType false t i = (.ok (t.mapSymbols i.symIn, anyChanged i.symIn t.symbols), i) := by
  obtain ⟨j, hj, _⟩ := qualifyType_ok false t i hv (.inr hc)
  have := qualifyType_false_state t i
  rw [hj] at this
  dsimp only at this
  rw [hj, this]

theorem qualifySignature_false_ok {t : Signature} {i : Imports} (hv : t.valid = true)
    (hc : ∀ s ∈ t.symbols, Covered i s) :
    qualifySignature false t i = (.ok (t.mapSymbols i.symIn, anyChanged i.symIn t.symbols), i) := by
  obtain ⟨j, hj, _⟩ := qualifySignature_ok false t i hv (.inr hc)
  have := qualifySignature_false_state t i
  rw [hj] at this
  dsimp only at this
  rw [hj, this]

/-- A lookup either returns with the state unchanged or panics; it never hangs, and it returns only
if all symbols are covered. (No validity needed.) -/
def LookupOf {α} (i : Imports) (l : List Symbol) (x : IM α) : Prop :=
  (∃ a, x i = (.ok a, i) ∧ ∀ s ∈ l, Covered i s) ∨ x i = (.panic, i)

theorem LookupOf.pure {α} {i : Imports} (a : α) : LookupOf i [] (pure a : IM α) :=
  .inl ⟨a, rfl, by simp⟩

theorem LookupOf.pure_nil {α} {i : Imports} {l : List Symbol} (a : α) (h : l = []) :
    LookupOf i l (Pure.pure a : IM α) := by subst h; exact .pure a

theorem LookupOf.lift {α} {i : Imports} (x : Outcome α) (hx : x ≠ .hang) :
    LookupOf i [] (IM.lift x) := by
  cases x with
  | ok a => exact .inl ⟨a, rfl, by simp⟩
  | panic => exact .inr rfl
  | hang => exact absurd rfl hx

theorem LookupOf.bind {α β} {i : Imports} {l l' : List Symbol} {x : IM α} {f : α → IM β}
    (hx : LookupOf i l x) (hf : ∀ a, LookupOf i l' (f a)) : LookupOf i (l ++ l') (x >>= f) := by
  rcases hx with ⟨a, ha, hl⟩ | hp
  · unfold LookupOf
    rw [IM.bind_ok ha]
    rcases hf a with ⟨b, hb, hl'⟩ | hp
    · refine .inl ⟨b, hb, fun s hs => ?_⟩
      rcases List.mem_append.1 hs with h | h
      · exact hl s h
      · exact hl' s h
    · exact .inr hp
  · exact .inr (IM.bind_panic hp)

theorem LookupOf.bind_nil {α β} {i : Imports} {l : List Symbol} {x : IM α} {f : α → IM β}
    (hx : LookupOf i l x) (hf : ∀ a, LookupOf i [] (f a)) : LookupOf i l (x >>= f) := by
  have := LookupOf.bind hx hf
  simpa using this

theorem LookupOf.ite {α} {i : Imports} {l : List Symbol} {c : Prop} [Decidable c] {x y : IM α}
    (hx : LookupOf i l x) (hy : LookupOf i l y) : LookupOf i l (if c then x else y) := by
  split <;> assumption

theorem lookup_qualify (s : Symbol) (i : Imports) : LookupOf i [s] (qualify s false) := by
  by_cases h : Covered i s
  · obtain ⟨j, hj, _⟩ := qualify_ok s false i (.inr h)
    have := (runs_qualify s false i).eq_of_false (by simp)
    rw [hj] at this
    dsimp only at this
    subst this
    exact .inl ⟨_, hj, by simpa using h⟩
  · exact .inr (qualify_panic h)

theorem lookup_qualifySymbols (i : Imports) : ∀ l, LookupOf i l (qualifySymbols false l)
  | [] => LookupOf.pure _
  | s :: l => by
    rw [qualifySymbols]
    exact LookupOf.bind (l := [s]) (lookup_qualify s i) fun _ =>
      LookupOf.bind_nil (lookup_qualifySymbols i l) fun _ => .pure _

theorem pointerType_ne_hang (t) : pointerType t ≠ .hang := by
  unfold pointerType; split <;> simp
theorem sliceType_ne_hang (t) : sliceType t ≠ .hang := by
  unfold sliceType; split <;> simp
theorem arrayType_ne_hang (t n) : arrayType t n ≠ .hang := by
  unfold arrayType; split <;> simp
theorem mapType_ne_hang (t n) : mapType t n ≠ .hang := by
  unfold mapType; split <;> simp
theorem channelType_ne_hang (t n) : channelType t n ≠ .hang := by
  unfold channelType; dsimp only; split <;> split <;> simp
theorem funcTypeFromSig_ne_hang (s) : funcTypeFromSig s ≠ .hang := by
  unfold funcTypeFromSig
  repeat' (first | split | simp)

mutual
theorem lookup_qualifyType (i : Imports) : ∀ t, LookupOf i t.symbols (qualifyType false t)
  | .nil => by rw [qualifyType]; exact .inr rfl
  | .basic k => by rw [qualifyType]; exact .pure _
  | .named s => by
    rw [qualifyType]
    exact .bind_nil (lookup_qualify s i) fun _ => .ite (.pure _) (.pure _)
  | .ptr e => by
    rw [qualifyType]
    exact .bind_nil (lookup_qualifyType i e) fun _ =>
      .ite (.bind_nil (.lift _ (pointerType_ne_hang _)) fun _ => .pure _) (.pure _)
  | .slice e => by
    rw [qualifyType]
    exact .bind_nil (lookup_qualifyType i e) fun _ =>
      .ite (.bind_nil (.lift _ (sliceType_ne_hang _)) fun _ => .pure _) (.pure _)
  | .array e n => by
    rw [qualifyType]
    exact .bind_nil (lookup_qualifyType i e) fun _ =>
      .ite (.bind_nil (.lift _ (arrayType_ne_hang _ _)) fun _ => .pure _) (.pure _)
  | .map e k => by
    rw [qualifyType]
    exact .bind (lookup_qualifyType i k) fun _ => .bind_nil (lookup_qualifyType i e) fun _ =>
      .ite (.bind_nil (.lift _ (mapType_ne_hang _ _)) fun _ => .pure _) (.pure _)
  | .chan e d => by
    rw [qualifyType]
    exact .bind_nil (lookup_qualifyType i e) fun _ =>
      .ite (.bind_nil (.lift _ (channelType_ne_hang _ _)) fun _ => .pure _) (.pure _)
  | .func s => by
    rw [qualifyType]
    exact .bind_nil (lookup_qualifySignature i s) fun _ =>
      .ite (.bind_nil (.lift _ (funcTypeFromSig_ne_hang _)) fun _ => .pure _) (.pure _)
  | .struct fs => by
    rw [qualifyType]
    exact .bind_nil (lookup_qualifyFields i fs) fun _ => .ite (.pure _) (.pure _)
  | .interface ms es => by
    rw [qualifyType]
    exact .bind (lookup_qualifySymbols i es) fun _ =>
      .bind_nil (lookup_qualifyMethods i ms) fun _ => .ite (.pure _) (.pure _)
theorem lookup_qualifySignature (i : Imports) :
    ∀ t, LookupOf i t.symbols (qualifySignature false t)
  | ⟨args, results, v⟩ => by
    rw [qualifySignature]
    exact .bind (lookup_qualifyArgs i args) fun _ =>
      .bind_nil (lookup_qualifyArgs i results) fun _ => .ite (.pure _) (.pure _)
theorem lookup_qualifyArgs (i : Imports) :
    ∀ t, LookupOf i (symbolsArgs t) (qualifyArgs false t)
  | [] => by rw [qualifyArgs]; exact .pure _
  | ⟨n, t⟩ :: ts => by
    rw [qualifyArgs]
    exact .bind (lookup_qualifyType i t) fun _ =>
      .bind_nil (lookup_qualifyArgs i ts) fun _ => .pure _
theorem lookup_qualifyFields (i : Imports) :
    ∀ t, LookupOf i (symbolsFields t) (qualifyFields false t)
  | [] => by rw [qualifyFields]; exact .pure _
  | ⟨n, t, tag⟩ :: ts => by
    rw [qualifyFields]
    exact .bind (lookup_qualifyType i t) fun _ =>
      .bind_nil (lookup_qualifyFields i ts) fun _ => .pure _
theorem lookup_qualifyMethods (i : Imports) :
    ∀ t, LookupOf i (symbolsMethods t) (qualifyMethods false t)
  | [] => by rw [qualifyMethods]; exact .pure _
  | ⟨n, t⟩ :: ts => by
    rw [qualifyMethods]
    exact .bind (lookup_qualifySignature i t) fun _ =>
      .bind_nil (lookup_qualifyMethods i ts) fun _ => .pure _
end

end Gopoet
