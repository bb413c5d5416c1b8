import Verif.Spec.TypeSyntax
import Verif.Spec.Imports
import Verif.Model.Render
import Verif.Proof.TypesLemmas
import Verif.Proof.LexLemmas
import Verif.Proof.ImportsLemmas
/-! Replacing symbols keeps the side conditions of rendering; rendering of valid types returns. -/

namespace Gopoet

mutual
theorem unproblematic_map (g : Symbol → Symbol) : ∀ t : TypeName,
    (t.mapSymbols g).unproblematic = t.unproblematic
  | .nil => rfl
  | .basic _ => rfl
  | .named _ => rfl
  | .ptr e => unproblematic_map g e
  | .slice e => unproblematic_map g e
  | .array e _ => unproblematic_map g e
  | .map e k => by
    rw [TypeName.mapSymbols, TypeName.unproblematic, unproblematic_map g e, unproblematic_map g k]; rfl
  | .chan e d => by
    have : (e.mapSymbols g).isRecvChan = e.isRecvChan := by cases e <;> rfl
    rw [TypeName.mapSymbols, TypeName.unproblematic, unproblematic_map g e, this]; rfl
  | .func s => unproblematic_mapSig g s
  | .struct fs => unproblematic_mapFields g fs
  | .interface ms es => by
    have : (mapSymbolsMethods g ms).isEmpty = ms.isEmpty := by
      cases ms with
      | nil => rfl
      | cons m ms => cases m; rfl
    rw [TypeName.mapSymbols, TypeName.unproblematic, unproblematic_mapMethods g ms, this]
    simp [TypeName.unproblematic]
theorem unproblematic_mapSig (g : Symbol → Symbol) : ∀ s : Signature,
    (s.mapSymbols g).unproblematic = s.unproblematic
  | ⟨a, r, v⟩ => by
    rw [Signature.mapSymbols, Signature.unproblematic, unproblematic_mapArgs g a,
      unproblematic_mapArgs g r]; rfl
theorem unproblematic_mapArgs (g : Symbol → Symbol) : ∀ l : List ArgType,
    unproblematicArgs (mapSymbolsArgs g l) = unproblematicArgs l
  | [] => rfl
  | ⟨n, t⟩ :: l => by
    rw [mapSymbolsArgs, unproblematicArgs, unproblematic_map g t, unproblematic_mapArgs g l]; rfl
theorem unproblematic_mapFields (g : Symbol → Symbol) : ∀ l : List FieldType,
    unproblematicFields (mapSymbolsFields g l) = unproblematicFields l
  | [] => rfl
  | ⟨n, t, tag⟩ :: l => by
    rw [mapSymbolsFields, unproblematicFields, unproblematic_map g t, unproblematic_mapFields g l]; rfl
theorem unproblematic_mapMethods (g : Symbol → Symbol) : ∀ l : List MethodType,
    unproblematicMethods (mapSymbolsMethods g l) = unproblematicMethods l
  | [] => rfl
  | ⟨n, s⟩ :: l => by
    rw [mapSymbolsMethods, unproblematicMethods, unproblematic_mapSig g s,
      unproblematic_mapMethods g l]; rfl
end

theorem embeddable_map (g : Symbol → Symbol) (t : TypeName) :
    (t.mapSymbols g).embeddable = t.embeddable := by
  cases t with
  | ptr e => cases e <;> rfl
  | _ => rfl

mutual
theorem wellNamed_map {g : Symbol → Symbol} : ∀ {t : TypeName}, t.wellNamed = true →
    (∀ s ∈ t.symbols, (g s).wellNamed = true) → (t.mapSymbols g).wellNamed = true
  | .nil, h, _ => h
  | .basic _, h, _ => h
  | .named s, _, hg => hg s (by simp [TypeName.symbols])
  | .ptr e, h, hg => wellNamed_map (t := e) h hg
  | .slice e, h, hg => wellNamed_map (t := e) h hg
  | .array e _, h, hg => wellNamed_map (t := e) h hg
  | .map e k, h, hg => by
    simp only [TypeName.wellNamed, TypeName.mapSymbols, Bool.and_eq_true] at h ⊢
    exact ⟨wellNamed_map h.1 fun s hs => hg s (by simp [TypeName.symbols, hs]),
      wellNamed_map h.2 fun s hs => hg s (by simp [TypeName.symbols, hs])⟩
  | .chan e _, h, hg => wellNamed_map (t := e) h hg
  | .func s, h, hg => wellNamed_mapSig (s := s) h hg
  | .struct fs, h, hg => wellNamed_mapFields (l := fs) h hg
  | .interface ms es, h, hg => by
    simp only [TypeName.wellNamed, TypeName.mapSymbols, Bool.and_eq_true, List.all_map] at h ⊢
    refine ⟨wellNamed_mapMethods h.1 fun s hs => hg s (by simp [TypeName.symbols, hs]), ?_⟩
    rw [List.all_eq_true]
    intro s hs
    exact hg s (by simp [TypeName.symbols, hs])
theorem wellNamed_mapSig {g : Symbol → Symbol} : ∀ {s : Signature}, s.wellNamed = true →
    (∀ x ∈ s.symbols, (g x).wellNamed = true) → (s.mapSymbols g).wellNamed = true
  | ⟨a, r, v⟩, h, hg => by
    simp only [Signature.wellNamed, Signature.mapSymbols, Bool.and_eq_true] at h ⊢
    exact ⟨wellNamed_mapArgs h.1 fun s hs => hg s (by simp [Signature.symbols, hs]),
      wellNamed_mapArgs h.2 fun s hs => hg s (by simp [Signature.symbols, hs])⟩
theorem wellNamed_mapArgs {g : Symbol → Symbol} : ∀ {l : List ArgType}, wellNamedArgs l = true →
    (∀ x ∈ symbolsArgs l, (g x).wellNamed = true) → wellNamedArgs (mapSymbolsArgs g l) = true
  | [], _, _ => rfl
  | ⟨n, t⟩ :: l, h, hg => by
    simp only [wellNamedArgs, mapSymbolsArgs, Bool.and_eq_true] at h ⊢
    exact ⟨⟨h.1.1, wellNamed_map h.1.2 fun s hs => hg s (by simp [symbolsArgs, hs])⟩,
      wellNamed_mapArgs h.2 fun s hs => hg s (by simp [symbolsArgs, hs])⟩
theorem wellNamed_mapFields {g : Symbol → Symbol} : ∀ {l : List FieldType},
    wellNamedFields l = true → (∀ x ∈ symbolsFields l, (g x).wellNamed = true) →
    wellNamedFields (mapSymbolsFields g l) = true
  | [], _, _ => rfl
  | ⟨n, t, tag⟩ :: l, h, hg => by
    simp only [wellNamedFields, mapSymbolsFields, Bool.and_eq_true, embeddable_map] at h ⊢
    exact ⟨⟨h.1.1, wellNamed_map h.1.2 fun s hs => hg s (by simp [symbolsFields, hs])⟩,
      wellNamed_mapFields h.2 fun s hs => hg s (by simp [symbolsFields, hs])⟩
theorem wellNamed_mapMethods {g : Symbol → Symbol} : ∀ {l : List MethodType},
    wellNamedMethods l = true → (∀ x ∈ symbolsMethods l, (g x).wellNamed = true) →
    wellNamedMethods (mapSymbolsMethods g l) = true
  | [], _, _ => rfl
  | ⟨n, s⟩ :: l, h, hg => by
    simp only [wellNamedMethods, mapSymbolsMethods, Bool.and_eq_true] at h ⊢
    exact ⟨⟨h.1.1, wellNamed_mapSig h.1.2 fun s hs => hg s (by simp [symbolsMethods, hs])⟩,
      wellNamed_mapMethods h.2 fun s hs => hg s (by simp [symbolsMethods, hs])⟩
end

mutual
/-- The symbols of a well named type are well named. -/
theorem wellNamed_symbols : ∀ {t : TypeName}, t.wellNamed = true → ∀ s ∈ t.symbols, s.wellNamed = true
  | .nil, _, s, hs => by simp [TypeName.symbols] at hs
  | .basic _, _, s, hs => by simp [TypeName.symbols] at hs
  | .named s, h, s', hs => by
    simp only [TypeName.symbols, List.mem_singleton] at hs; subst hs; exact h
  | .ptr e, h, s, hs => wellNamed_symbols (t := e) h s hs
  | .slice e, h, s, hs => wellNamed_symbols (t := e) h s hs
  | .array e _, h, s, hs => wellNamed_symbols (t := e) h s hs
  | .map e k, h, s, hs => by
    simp only [TypeName.wellNamed, Bool.and_eq_true, TypeName.symbols, List.mem_append] at h hs
    rcases hs with hs | hs
    · exact wellNamed_symbols h.2 s hs
    · exact wellNamed_symbols h.1 s hs
  | .chan e _, h, s, hs => wellNamed_symbols (t := e) h s hs
  | .func sg, h, s, hs => wellNamed_symbolsSig (s := sg) h s hs
  | .struct fs, h, s, hs => wellNamed_symbolsFields (l := fs) h s hs
  | .interface ms es, h, s, hs => by
    simp only [TypeName.wellNamed, Bool.and_eq_true, TypeName.symbols, List.mem_append,
      List.all_eq_true] at h hs
    rcases hs with hs | hs
    · exact h.2 s hs
    · exact wellNamed_symbolsMethods h.1 s hs
theorem wellNamed_symbolsSig : ∀ {s : Signature}, s.wellNamed = true →
    ∀ x ∈ s.symbols, x.wellNamed = true
  | ⟨a, r, v⟩, h, s, hs => by
    simp only [Signature.wellNamed, Bool.and_eq_true, Signature.symbols, List.mem_append] at h hs
    rcases hs with hs | hs
    · exact wellNamed_symbolsArgs h.1 s hs
    · exact wellNamed_symbolsArgs h.2 s hs
theorem wellNamed_symbolsArgs : ∀ {l : List ArgType}, wellNamedArgs l = true →
    ∀ x ∈ symbolsArgs l, x.wellNamed = true
  | [], _, s, hs => by simp [symbolsArgs] at hs
  | ⟨n, t⟩ :: l, h, s, hs => by
    simp only [wellNamedArgs, Bool.and_eq_true, symbolsArgs, List.mem_append] at h hs
    rcases hs with hs | hs
    · exact wellNamed_symbols h.1.2 s hs
    · exact wellNamed_symbolsArgs h.2 s hs
theorem wellNamed_symbolsFields : ∀ {l : List FieldType}, wellNamedFields l = true →
    ∀ x ∈ symbolsFields l, x.wellNamed = true
  | [], _, s, hs => by simp [symbolsFields] at hs
  | ⟨n, t, tag⟩ :: l, h, s, hs => by
    simp only [wellNamedFields, Bool.and_eq_true, symbolsFields, List.mem_append] at h hs
    rcases hs with hs | hs
    · exact wellNamed_symbols h.1.2 s hs
    · exact wellNamed_symbolsFields h.2 s hs
theorem wellNamed_symbolsMethods : ∀ {l : List MethodType}, wellNamedMethods l = true →
    ∀ x ∈ symbolsMethods l, x.wellNamed = true
  | [], _, s, hs => by simp [symbolsMethods] at hs
  | ⟨n, t⟩ :: l, h, s, hs => by
    simp only [wellNamedMethods, Bool.and_eq_true, symbolsMethods, List.mem_append] at h hs
    rcases hs with hs | hs
    · exact wellNamed_symbolsSig h.1.2 s hs
    · exact wellNamed_symbolsMethods h.2 s hs
end

/-! ## Aliases are identifiers -/

theorem keyword_no_digit_end {w : GoString} {b : UInt8} (hb : isDigitByte b = true) :
    keyword? (w ++ [b]) = none := by
  rw [keyword?, Option.map_eq_none_iff, List.find?_eq_none]
  intro e he hc
  have hlast : ∀ e ∈ keywords, ∀ x, e.1.getLast? = some x → isDigitByte x = false := by decide
  have hc' : e.1 = w ++ [b] := by simpa using hc
  have := hlast e he b (by rw [hc']; simp)
  rw [hb] at this; simp at this

theorem isIdent_candidate {base : GoString} (h : isIdent base = true) (n : Nat) :
    isIdent (candidate base n) = true := by
  cases n with
  | zero => exact h
  | succ n =>
    simp only [isIdent, Bool.and_eq_true, Option.isNone_iff_eq_none] at h ⊢
    obtain ⟨⟨h1, h2⟩, _⟩ := h
    obtain ⟨hne, hdig, _, _⟩ := decDigitsAux_spec (n + 1 + 1) (n + 1) (by omega)
    have hdig' : ∀ b ∈ decDigits (n + 1), isDigitByte b = true := List.all_eq_true.1 hdig
    refine ⟨⟨?_, ?_⟩, ?_⟩
    · cases base with
      | nil => simp at h1
      | cons b base => exact h1
    · rw [candidate, List.all_append, h2, Bool.true_and, List.all_eq_true]
      intro b hb; simp [isWordByte, hdig' b hb]
    · rw [candidate]
      obtain ⟨l, b, hl⟩ : ∃ l b, decDigits (n + 1) = l ++ [b] :=
        ⟨_, _, (List.dropLast_append_getLast hne).symm⟩
      rw [hl, ← List.append_assoc]
      exact keyword_no_digit_end (hdig' b (by rw [hl]; simp))

/-! ## Rendering of valid types returns -/

mutual
theorem buffer_ok (tbl : Nat → Bool) : ∀ {t : TypeName}, t.valid = true →
    ∃ s, typeNameToBuffer tbl t = .ok s
  | .nil, h => by simp [TypeName.valid] at h
  | .basic _, _ => ⟨_, rfl⟩
  | .named _, _ => ⟨_, rfl⟩
  | .ptr e, h => by
    obtain ⟨s, hs⟩ := buffer_ok tbl (t := e) h; exact ⟨_, by rw [typeNameToBuffer, hs]; rfl⟩
  | .slice e, h => by
    obtain ⟨s, hs⟩ := buffer_ok tbl (t := e) h; exact ⟨_, by rw [typeNameToBuffer, hs]; rfl⟩
  | .array e n, h => by
    simp only [TypeName.valid, Bool.and_eq_true] at h
    obtain ⟨s, hs⟩ := buffer_ok tbl (t := e) h.1; exact ⟨_, by rw [typeNameToBuffer, hs]; rfl⟩
  | .map e k, h => by
    simp only [TypeName.valid, Bool.and_eq_true] at h
    obtain ⟨s, hs⟩ := buffer_ok tbl (t := e) h.1
    obtain ⟨s', hs'⟩ := buffer_ok tbl (t := k) h.2
    exact ⟨_, by rw [typeNameToBuffer, hs, hs']; rfl⟩
  | .chan e d, h => by
    simp only [TypeName.valid, Bool.and_eq_true] at h
    obtain ⟨s, hs⟩ := buffer_ok tbl (t := e) h.1; exact ⟨_, by rw [typeNameToBuffer, hs]; rfl⟩
  | .func sg, h => by
    obtain ⟨s, hs⟩ := buffer_okSig tbl (s := sg) h; exact ⟨_, by rw [typeNameToBuffer, hs]; rfl⟩
  | .struct fs, h => by
    obtain ⟨s, hs⟩ := buffer_okFields tbl 0 (l := fs) h
    exact ⟨_, by rw [typeNameToBuffer, hs]; rfl⟩
  | .interface ms es, h => by
    obtain ⟨s, hs⟩ := buffer_okMethods tbl 0 (l := ms) h
    exact ⟨_, by rw [typeNameToBuffer, hs]; rfl⟩
theorem buffer_okSig (tbl : Nat → Bool) : ∀ {s : Signature}, s.valid = true →
    ∃ w, signatureToBuffer tbl s = .ok w
  | ⟨a, r, v⟩, h => by
    simp only [Signature.valid, Bool.and_eq_true, Bool.or_eq_true, Bool.not_eq_true'] at h
    obtain ⟨w, hw⟩ := buffer_okArgs tbl v (anyNamed a) a.length 0 (l := a) h.1.1 (by simp) (by
      intro hv _; rcases h.2 with h' | h'
      · simp [hv] at h'
      · exact h')
    obtain ⟨w', hw'⟩ := buffer_okArgs tbl false (anyNamed r) r.length 0 (l := r) h.1.2 (by simp)
      (by simp)
    exact ⟨_, by rw [signatureToBuffer, hw, hw']; rfl⟩
theorem buffer_okArgs (tbl : Nat → Bool) (v named : Bool) (n i : Nat) : ∀ {l : List ArgType},
    validArgs l = true → n = i + l.length → (v = true → l ≠ [] → lastIsSlice l = true) →
    ∃ w, argsToBuffer tbl v named n i l = .ok w
  | [], _, _, _ => ⟨_, rfl⟩
  | ⟨nm, t⟩ :: l, h, hn, hv => by
    simp only [validArgs, Bool.and_eq_true] at h
    obtain ⟨w, hw⟩ := buffer_okArgs tbl v named n (i + 1) (l := l) h.2 (by simp at hn; omega) (by
      intro hv' hne
      have := hv hv' (by simp)
      cases l with
      | nil => simp at hne
      | cons b l => simpa [lastIsSlice, List.getLast?_cons_cons] using this)
    by_cases hc : (v && i == n - 1) = true
    · have hc' := hc
      simp only [Bool.and_eq_true, beq_iff_eq] at hc'
      have hl : l = [] := by
        simp only [List.length_cons] at hn
        exact List.length_eq_zero_iff.1 (by omega)
      subst hl
      have hs := hv hc'.1 (by simp)
      match t, h, hs with
      | .slice e, h, _ =>
        obtain ⟨s, hs⟩ := buffer_ok tbl (t := e) h.1
        exact ⟨_, by rw [argsToBuffer, if_pos hc, elemToBuffer, hs, hw]; rfl⟩
    · obtain ⟨s, hs⟩ := buffer_ok tbl (t := t) h.1
      exact ⟨_, by rw [argsToBuffer, if_neg hc, hs, hw]; rfl⟩
theorem buffer_okFields (tbl : Nat → Bool) (i : Nat) : ∀ {l : List FieldType},
    validFields l = true → ∃ w, fieldsToBuffer tbl i l = .ok w
  | [], _ => ⟨_, rfl⟩
  | ⟨n, t, tag⟩ :: l, h => by
    simp only [validFields, Bool.and_eq_true] at h
    obtain ⟨s, hs⟩ := buffer_ok tbl (t := t) h.1
    obtain ⟨s', hs'⟩ := buffer_okFields tbl (i + 1) (l := l) h.2
    exact ⟨_, by rw [fieldsToBuffer, hs, hs']; rfl⟩
theorem buffer_okMethods (tbl : Nat → Bool) (i : Nat) : ∀ {l : List MethodType},
    validMethods l = true → ∃ w, methodsToBuffer tbl i l = .ok w
  | [], _ => ⟨_, rfl⟩
  | ⟨n, sg⟩ :: l, h => by
    simp only [validMethods, Bool.and_eq_true] at h
    obtain ⟨s, hs⟩ := buffer_okSig tbl (s := sg) h.1
    obtain ⟨s', hs'⟩ := buffer_okMethods tbl (i + 1) (l := l) h.2
    exact ⟨_, by rw [methodsToBuffer, hs, hs']; rfl⟩
end

/-- `String` and `typeNameToBuffer` write the same text. -/
theorem string_eq_buffer (tbl : Nat → Bool) (t : TypeName) : t.string tbl = typeNameToBuffer tbl t := by
  cases t <;> simp [TypeName.string, typeNameToBuffer, basicText]
  rename_i s
  simp only [Symbol.string, symbolText]
  split <;> simp_all

end Gopoet
