import Verif.Spec.Types
/-! Lemmas about replacing symbols in types and about validity. -/

namespace Gopoet

mutual
theorem mapSymbols_congr {f g : Symbol → Symbol} :
    ∀ (t : TypeName), (∀ s ∈ t.symbols, f s = g s) → t.mapSymbols f = t.mapSymbols g
  | .nil, _ => rfl
  | .basic _, _ => rfl
  | .named s, h => by
    simp only [TypeName.symbols, List.mem_singleton, forall_eq] at h
    simp only [TypeName.mapSymbols, h]
  | .ptr e, h => by simp only [TypeName.mapSymbols, mapSymbols_congr e h]
  | .slice e, h => by simp only [TypeName.mapSymbols, mapSymbols_congr e h]
  | .array e n, h => by simp only [TypeName.mapSymbols, mapSymbols_congr e h]
  | .map e k, h => by
    simp only [TypeName.symbols, List.mem_append] at h
    simp only [TypeName.mapSymbols, mapSymbols_congr e (fun s hs => h s (.inr hs)),
      mapSymbols_congr k (fun s hs => h s (.inl hs))]
  | .chan e d, h => by simp only [TypeName.mapSymbols, mapSymbols_congr e h]
  | .func s, h => by simp only [TypeName.mapSymbols, mapSymbols_congr_sig s h]
  | .struct fs, h => by simp only [TypeName.mapSymbols, mapSymbols_congr_fields fs h]
  | .interface ms es, h => by
    simp only [TypeName.symbols, List.mem_append] at h
    simp only [TypeName.mapSymbols, mapSymbols_congr_methods ms (fun s hs => h s (.inr hs)),
      TypeName.interface.injEq, true_and]
    exact List.map_congr_left (fun s hs => h s (.inl hs))
theorem mapSymbols_congr_sig {f g : Symbol → Symbol} :
    ∀ (s : Signature), (∀ x ∈ s.symbols, f x = g x) → s.mapSymbols f = s.mapSymbols g
  | ⟨a, r, v⟩, h => by
    simp only [Signature.symbols, List.mem_append] at h
    simp only [Signature.mapSymbols, mapSymbols_congr_args a (fun s hs => h s (.inl hs)),
      mapSymbols_congr_args r (fun s hs => h s (.inr hs))]
theorem mapSymbols_congr_args {f g : Symbol → Symbol} :
    ∀ (l : List ArgType), (∀ x ∈ symbolsArgs l, f x = g x) → mapSymbolsArgs f l = mapSymbolsArgs g l
  | [], _ => rfl
  | ⟨n, t⟩ :: l, h => by
    simp only [symbolsArgs, List.mem_append] at h
    simp only [mapSymbolsArgs, mapSymbols_congr t (fun s hs => h s (.inl hs)),
      mapSymbols_congr_args l (fun s hs => h s (.inr hs))]
theorem mapSymbols_congr_fields {f g : Symbol → Symbol} :
    ∀ (l : List FieldType), (∀ x ∈ symbolsFields l, f x = g x) →
      mapSymbolsFields f l = mapSymbolsFields g l
  | [], _ => rfl
  | ⟨n, t, tag⟩ :: l, h => by
    simp only [symbolsFields, List.mem_append] at h
    simp only [mapSymbolsFields, mapSymbols_congr t (fun s hs => h s (.inl hs)),
      mapSymbols_congr_fields l (fun s hs => h s (.inr hs))]
theorem mapSymbols_congr_methods {f g : Symbol → Symbol} :
    ∀ (l : List MethodType), (∀ x ∈ symbolsMethods l, f x = g x) →
      mapSymbolsMethods f l = mapSymbolsMethods g l
  | [], _ => rfl
  | ⟨n, t⟩ :: l, h => by
    simp only [symbolsMethods, List.mem_append] at h
    simp only [mapSymbolsMethods, mapSymbols_congr_sig t (fun s hs => h s (.inl hs)),
      mapSymbols_congr_methods l (fun s hs => h s (.inr hs))]
end

mutual
theorem mapSymbols_id' : ∀ (t : TypeName), t.mapSymbols id = t
  | .nil => rfl
  | .basic _ => rfl
  | .named s => rfl
  | .ptr e => by simp only [TypeName.mapSymbols, mapSymbols_id' e]
  | .slice e => by simp only [TypeName.mapSymbols, mapSymbols_id' e]
  | .array e n => by simp only [TypeName.mapSymbols, mapSymbols_id' e]
  | .map e k => by simp only [TypeName.mapSymbols, mapSymbols_id' e, mapSymbols_id' k]
  | .chan e d => by simp only [TypeName.mapSymbols, mapSymbols_id' e]
  | .func s => by simp only [TypeName.mapSymbols, mapSymbols_id'_sig s]
  | .struct fs => by simp only [TypeName.mapSymbols, mapSymbols_id'_fields fs]
  | .interface ms es => by
    simp only [TypeName.mapSymbols, mapSymbols_id'_methods ms, List.map_id]
theorem mapSymbols_id'_sig : ∀ (s : Signature), s.mapSymbols id = s
  | ⟨a, r, v⟩ => by simp only [Signature.mapSymbols, mapSymbols_id'_args a, mapSymbols_id'_args r]
theorem mapSymbols_id'_args : ∀ (l : List ArgType), mapSymbolsArgs id l = l
  | [] => rfl
  | ⟨n, t⟩ :: l => by simp only [mapSymbolsArgs, mapSymbols_id' t, mapSymbols_id'_args l]
theorem mapSymbols_id'_fields : ∀ (l : List FieldType), mapSymbolsFields id l = l
  | [] => rfl
  | ⟨n, t, tag⟩ :: l => by simp only [mapSymbolsFields, mapSymbols_id' t, mapSymbols_id'_fields l]
theorem mapSymbols_id'_methods : ∀ (l : List MethodType), mapSymbolsMethods id l = l
  | [] => rfl
  | ⟨n, t⟩ :: l => by
    simp only [mapSymbolsMethods, mapSymbols_id'_sig t, mapSymbols_id'_methods l]
end

theorem mapSymbols_eq_self {f : Symbol → Symbol} (t : TypeName) (h : ∀ s ∈ t.symbols, f s = s) :
    t.mapSymbols f = t := (mapSymbols_congr t h).trans (mapSymbols_id' t)

theorem mapSymbols_eq_self_sig {f : Symbol → Symbol} (t : Signature)
    (h : ∀ s ∈ t.symbols, f s = s) : t.mapSymbols f = t :=
  (mapSymbols_congr_sig t h).trans (mapSymbols_id'_sig t)

mutual
theorem symbols_mapSymbols (f : Symbol → Symbol) :
    ∀ (t : TypeName), (t.mapSymbols f).symbols = t.symbols.map f
  | .nil => rfl
  | .basic _ => rfl
  | .named s => rfl
  | .ptr e => by simp only [TypeName.mapSymbols, TypeName.symbols, symbols_mapSymbols f e]
  | .slice e => by simp only [TypeName.mapSymbols, TypeName.symbols, symbols_mapSymbols f e]
  | .array e n => by simp only [TypeName.mapSymbols, TypeName.symbols, symbols_mapSymbols f e]
  | .map e k => by
    simp only [TypeName.mapSymbols, TypeName.symbols, symbols_mapSymbols f e,
      symbols_mapSymbols f k, List.map_append]
  | .chan e d => by simp only [TypeName.mapSymbols, TypeName.symbols, symbols_mapSymbols f e]
  | .func s => by simp only [TypeName.mapSymbols, TypeName.symbols, symbols_mapSymbols_sig f s]
  | .struct fs => by
    simp only [TypeName.mapSymbols, TypeName.symbols, symbols_mapSymbols_fields f fs]
  | .interface ms es => by
    simp only [TypeName.mapSymbols, TypeName.symbols, symbols_mapSymbols_methods f ms,
      List.map_append]
theorem symbols_mapSymbols_sig (f : Symbol → Symbol) :
    ∀ (s : Signature), (s.mapSymbols f).symbols = s.symbols.map f
  | ⟨a, r, v⟩ => by
    simp only [Signature.mapSymbols, Signature.symbols, symbols_mapSymbols_args f a,
      symbols_mapSymbols_args f r, List.map_append]
theorem symbols_mapSymbols_args (f : Symbol → Symbol) :
    ∀ (l : List ArgType), symbolsArgs (mapSymbolsArgs f l) = (symbolsArgs l).map f
  | [] => rfl
  | ⟨n, t⟩ :: l => by
    simp only [mapSymbolsArgs, symbolsArgs, symbols_mapSymbols f t, symbols_mapSymbols_args f l,
      List.map_append]
theorem symbols_mapSymbols_fields (f : Symbol → Symbol) :
    ∀ (l : List FieldType), symbolsFields (mapSymbolsFields f l) = (symbolsFields l).map f
  | [] => rfl
  | ⟨n, t, tag⟩ :: l => by
    simp only [mapSymbolsFields, symbolsFields, symbols_mapSymbols f t,
      symbols_mapSymbols_fields f l, List.map_append]
theorem symbols_mapSymbols_methods (f : Symbol → Symbol) :
    ∀ (l : List MethodType), symbolsMethods (mapSymbolsMethods f l) = (symbolsMethods l).map f
  | [] => rfl
  | ⟨n, t⟩ :: l => by
    simp only [mapSymbolsMethods, symbolsMethods, symbols_mapSymbols_sig f t,
      symbols_mapSymbols_methods f l, List.map_append]
end

mutual
theorem mapSymbols_comp (f g : Symbol → Symbol) :
    ∀ (t : TypeName), (t.mapSymbols f).mapSymbols g = t.mapSymbols (fun s => g (f s))
  | .nil => rfl
  | .basic _ => rfl
  | .named s => rfl
  | .ptr e => by simp only [TypeName.mapSymbols, mapSymbols_comp f g e]
  | .slice e => by simp only [TypeName.mapSymbols, mapSymbols_comp f g e]
  | .array e n => by simp only [TypeName.mapSymbols, mapSymbols_comp f g e]
  | .map e k => by simp only [TypeName.mapSymbols, mapSymbols_comp f g e, mapSymbols_comp f g k]
  | .chan e d => by simp only [TypeName.mapSymbols, mapSymbols_comp f g e]
  | .func s => by simp only [TypeName.mapSymbols, mapSymbols_comp_sig f g s]
  | .struct fs => by simp only [TypeName.mapSymbols, mapSymbols_comp_fields f g fs]
  | .interface ms es => by
    simp only [TypeName.mapSymbols, mapSymbols_comp_methods f g ms, List.map_map]
    rfl
theorem mapSymbols_comp_sig (f g : Symbol → Symbol) :
    ∀ (s : Signature), (s.mapSymbols f).mapSymbols g = s.mapSymbols (fun s => g (f s))
  | ⟨a, r, v⟩ => by
    simp only [Signature.mapSymbols, mapSymbols_comp_args f g a, mapSymbols_comp_args f g r]
theorem mapSymbols_comp_args (f g : Symbol → Symbol) :
    ∀ (l : List ArgType),
      mapSymbolsArgs g (mapSymbolsArgs f l) = mapSymbolsArgs (fun s => g (f s)) l
  | [] => rfl
  | ⟨n, t⟩ :: l => by simp only [mapSymbolsArgs, mapSymbols_comp f g t, mapSymbols_comp_args f g l]
theorem mapSymbols_comp_fields (f g : Symbol → Symbol) :
    ∀ (l : List FieldType),
      mapSymbolsFields g (mapSymbolsFields f l) = mapSymbolsFields (fun s => g (f s)) l
  | [] => rfl
  | ⟨n, t, tag⟩ :: l => by
    simp only [mapSymbolsFields, mapSymbols_comp f g t, mapSymbols_comp_fields f g l]
theorem mapSymbols_comp_methods (f g : Symbol → Symbol) :
    ∀ (l : List MethodType),
      mapSymbolsMethods g (mapSymbolsMethods f l) = mapSymbolsMethods (fun s => g (f s)) l
  | [] => rfl
  | ⟨n, t⟩ :: l => by
    simp only [mapSymbolsMethods, mapSymbols_comp_sig f g t, mapSymbols_comp_methods f g l]
end

theorem lastIsSlice_mapSymbolsArgs (f : Symbol → Symbol) :
    ∀ l, lastIsSlice (mapSymbolsArgs f l) = lastIsSlice l
  | [] => rfl
  | [⟨n, t⟩] => by cases t <;> rfl
  | ⟨n, t⟩ :: b :: l => by
    have h := lastIsSlice_mapSymbolsArgs f (b :: l)
    obtain ⟨m, u⟩ := b
    simp only [lastIsSlice, mapSymbolsArgs, List.getLast?_cons_cons] at h ⊢
    exact h

mutual
theorem valid_mapSymbols (f : Symbol → Symbol) :
    ∀ (t : TypeName), (t.mapSymbols f).valid = t.valid
  | .nil => rfl
  | .basic _ => rfl
  | .named s => rfl
  | .ptr e => by simp only [TypeName.mapSymbols, TypeName.valid, valid_mapSymbols f e]
  | .slice e => by simp only [TypeName.mapSymbols, TypeName.valid, valid_mapSymbols f e]
  | .array e n => by simp only [TypeName.mapSymbols, TypeName.valid, valid_mapSymbols f e]
  | .map e k => by
    simp only [TypeName.mapSymbols, TypeName.valid, valid_mapSymbols f e, valid_mapSymbols f k]
  | .chan e d => by simp only [TypeName.mapSymbols, TypeName.valid, valid_mapSymbols f e]
  | .func s => by simp only [TypeName.mapSymbols, TypeName.valid, valid_mapSymbols_sig f s]
  | .struct fs => by
    simp only [TypeName.mapSymbols, TypeName.valid, valid_mapSymbols_fields f fs]
  | .interface ms es => by
    simp only [TypeName.mapSymbols, TypeName.valid, valid_mapSymbols_methods f ms]
theorem valid_mapSymbols_sig (f : Symbol → Symbol) :
    ∀ (s : Signature), (s.mapSymbols f).valid = s.valid
  | ⟨a, r, v⟩ => by
    simp only [Signature.mapSymbols, Signature.valid, valid_mapSymbols_args f a,
      valid_mapSymbols_args f r, lastIsSlice_mapSymbolsArgs]
theorem valid_mapSymbols_args (f : Symbol → Symbol) :
    ∀ (l : List ArgType), validArgs (mapSymbolsArgs f l) = validArgs l
  | [] => rfl
  | ⟨n, t⟩ :: l => by
    simp only [mapSymbolsArgs, validArgs, valid_mapSymbols f t, valid_mapSymbols_args f l]
theorem valid_mapSymbols_fields (f : Symbol → Symbol) :
    ∀ (l : List FieldType), validFields (mapSymbolsFields f l) = validFields l
  | [] => rfl
  | ⟨n, t, tag⟩ :: l => by
    simp only [mapSymbolsFields, validFields, valid_mapSymbols f t, valid_mapSymbols_fields f l]
theorem valid_mapSymbols_methods (f : Symbol → Symbol) :
    ∀ (l : List MethodType), validMethods (mapSymbolsMethods f l) = validMethods l
  | [] => rfl
  | ⟨n, t⟩ :: l => by
    simp only [mapSymbolsMethods, validMethods, valid_mapSymbols_sig f t,
      valid_mapSymbols_methods f l]
end

theorem not_isNil_of_valid {t : TypeName} (h : t.valid = true) : t.isNil = false := by
  cases t <;> simp_all [TypeName.valid, TypeName.isNil]

theorem validArgs_iff (l : List ArgType) :
    validArgs l = true ↔ ∀ a ∈ l, a.type.valid = true := by
  induction l with
  | nil => simp [validArgs]
  | cons a l ih => obtain ⟨n, t⟩ := a; simp [validArgs, ih]

theorem validFields_iff (l : List FieldType) :
    validFields l = true ↔ ∀ a ∈ l, a.type.valid = true := by
  induction l with
  | nil => simp [validFields]
  | cons a l ih => obtain ⟨n, t⟩ := a; simp [validFields, ih]

theorem validMethods_iff (l : List MethodType) :
    validMethods l = true ↔ ∀ a ∈ l, a.signature.valid = true := by
  induction l with
  | nil => simp [validMethods]
  | cons a l ih => obtain ⟨n, t⟩ := a; simp [validMethods, ih]

theorem any_isNil_of_validArgs {l : List ArgType} (h : validArgs l = true) :
    l.any (·.type.isNil) = false := by
  rw [validArgs_iff] at h
  simp only [List.any_eq_false, Bool.not_eq_true]
  exact fun a ha => not_isNil_of_valid (h a ha)

theorem funcTypeFromSig_valid {s : Signature} (h : s.valid = true) :
    funcTypeFromSig s = .ok (.func s) := by
  obtain ⟨a, r, v⟩ := s
  simp only [Signature.valid, Bool.and_eq_true, Bool.or_eq_true, Bool.not_eq_true'] at h
  obtain ⟨⟨ha, hr⟩, hv⟩ := h
  simp only [funcTypeFromSig, any_isNil_of_validArgs ha, any_isNil_of_validArgs hr,
    Bool.false_eq_true, if_false]
  cases v with
  | false => rfl
  | true =>
    simp only [Bool.true_eq_false, false_or, lastIsSlice] at hv
    simp only [if_true]
    cases hl : a.getLast? with
    | none => rw [hl] at hv; simp at hv
    | some x =>
      rw [hl] at hv
      obtain ⟨n, t⟩ := x
      cases t <;> simp_all [TypeName.kind]

theorem channelType_valid {t : TypeName} {d : ChanDir} (h : (TypeName.chan t d).valid = true) :
    channelType t d = .ok (.chan t d) := by
  simp only [TypeName.valid, Bool.and_eq_true, Bool.or_eq_true, beq_iff_eq] at h
  obtain ⟨ht, (rfl | rfl) | rfl⟩ := h <;>
    simp [channelType, not_isNil_of_valid ht, recvDir, sendDir, bothDir]

end Gopoet
