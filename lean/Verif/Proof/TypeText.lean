import Verif.Spec.TypeText
import Verif.Spec.Types
import Verif.Proof.UsedImports
/-! Lemmas for C65: what the Go type that a type name stands for tells about the type name. -/

namespace Gopoet

/-- The parameter list is as in a valid signature. -/
def GoodArgs (v : Bool) (l : List ArgType) : Prop := l = [] ∨ (!v || lastIsSlice l) = true

theorem GoodArgs.tail {v : Bool} {a : ArgType} {l : List ArgType} (h : GoodArgs v (a :: l)) : GoodArgs v l := by
  rcases h with h | h
  · cases h
  · cases l with
    | nil => exact .inl rfl
    | cons b l => exact .inr (by simpa [lastIsSlice, List.getLast?_cons_cons] using h)

theorem GoodArgs.elem (m : Symbol → TypeIdent) {v : Bool} {n : GoString} {t : TypeName} {l : List ArgType}
    (h : GoodArgs v (⟨n, t⟩ :: l)) (hv : (v && l.isEmpty) = true) : t.meaning m = .slice (meaningElem m t) := by
  rcases h with h | h
  · cases h
  · rw [Bool.and_eq_true] at hv
    cases l with
    | cons => cases hv.2
    | nil =>
      rw [hv.1] at h
      cases t <;> simp [lastIsSlice] at h
      rw [TypeName.meaning, meaningElem]

theorem GoodArgs.param {β : Type} (f : GoType TypeIdent → β) (hf : ∀ e, f (.slice e) = f e) (m : Symbol → TypeIdent)
    {v : Bool} {n : GoString} {t : TypeName} {l : List ArgType} (h : GoodArgs v (⟨n, t⟩ :: l)) :
    f (if v && l.isEmpty then meaningElem m t else t.meaning m) = f (t.meaning m) := by
  split
  · rename_i hv
    rw [h.elem m hv, hf]
  · rfl

theorem goodArgs_sig {args results : List ArgType} {v : Bool} (h : Signature.valid ⟨args, results, v⟩ = true) :
    (validArgs args = true ∧ GoodArgs v args) ∧ validArgs results = true ∧ GoodArgs false results := by
  rw [Signature.valid, Bool.and_eq_true, Bool.and_eq_true] at h
  exact ⟨⟨h.1.1, .inr h.2⟩, h.1.2, .inr rfl⟩

theorem mem_append_iff₂ {α : Type} {P Q : Prop} {x : α} {a b : List α} (h1 : x ∈ a ↔ P) (h2 : x ∈ b ↔ Q) :
    x ∈ a ++ b ↔ P ∨ Q := by rw [List.mem_append, h1, h2]

/-- A reference comes from a symbol or a basic type. -/
def FromNames (m : Symbol → TypeIdent) (x : TypeIdent) (ss : List Symbol) (ks : List ReflectKind) : Prop :=
  (∃ s ∈ ss, m s = x) ∨ ∃ k ∈ ks, kindIdent k = x

theorem fromNames_append {m : Symbol → TypeIdent} {x : TypeIdent} {a b : List Symbol} {c d : List ReflectKind} :
    FromNames m x (a ++ b) (c ++ d) ↔ FromNames m x a c ∨ FromNames m x b d := by
  simp only [FromNames, List.mem_append, or_and_right, exists_or]
  constructor
  · rintro ((h | h) | (h | h)) <;> simp [h]
  · rintro ((h | h) | (h | h)) <;> simp [h]

mutual
theorem refs_type (m : Symbol → TypeIdent) (x : TypeIdent) : ∀ t : TypeName, t.valid = true →
    (x ∈ (t.meaning m).typeRefs ↔ FromNames m x t.symbols t.basics)
  | .nil, hv => by rw [TypeName.valid] at hv; cases hv
  | .basic k, hv => by
    simp [TypeName.meaning, GoType.typeRefs, FromNames, TypeName.symbols, TypeName.basics, eq_comm]
  | .named s, hv => by
    simp [TypeName.meaning, GoType.typeRefs, FromNames, TypeName.symbols, TypeName.basics, eq_comm]
  | .ptr e, hv => by
    rw [TypeName.valid] at hv
    rw [TypeName.meaning, GoType.typeRefs, TypeName.symbols, TypeName.basics]; exact refs_type m x e hv
  | .slice e, hv => by
    rw [TypeName.valid] at hv
    rw [TypeName.meaning, GoType.typeRefs, TypeName.symbols, TypeName.basics]; exact refs_type m x e hv
  | .array e _, hv => by
    rw [TypeName.valid, Bool.and_eq_true] at hv
    rw [TypeName.meaning, GoType.typeRefs, TypeName.symbols, TypeName.basics]; exact refs_type m x e hv.1
  | .chan e _, hv => by
    rw [TypeName.valid, Bool.and_eq_true] at hv
    rw [TypeName.meaning, GoType.typeRefs, TypeName.symbols, TypeName.basics]; exact refs_type m x e hv.1
  | .map e k, hv => by
    rw [TypeName.valid, Bool.and_eq_true] at hv
    rw [TypeName.meaning, GoType.typeRefs, TypeName.symbols, TypeName.basics,
      mem_append_iff₂ (refs_type m x k hv.2) (refs_type m x e hv.1)]
    simp only [FromNames, List.mem_append, or_and_right, exists_or]
    constructor
    · rintro ((h | h) | (h | h)) <;> simp [h]
    · rintro ((h | h) | (h | h)) <;> simp [h]
  | .func s, hv => by
    rw [TypeName.valid] at hv
    rw [TypeName.meaning, GoType.typeRefs, TypeName.symbols, TypeName.basics]; exact refs_sig m x s hv
  | .struct fs, hv => by
    rw [TypeName.valid] at hv
    rw [TypeName.meaning, GoType.typeRefs, TypeName.symbols, TypeName.basics]; exact refs_fields m x fs hv
  | .interface ms es, hv => by
    rw [TypeName.valid] at hv
    rw [TypeName.meaning, GoType.typeRefs, TypeName.symbols, TypeName.basics, typeRefsElems_append, typeRefsElems_embeds,
      mem_append_iff₂ List.mem_map (refs_methods m x ms hv)]
    simp only [FromNames, List.mem_append, or_and_right, exists_or, or_assoc]
theorem refs_sig (m : Symbol → TypeIdent) (x : TypeIdent) : ∀ s : Signature, s.valid = true →
    (x ∈ (s.meaning m).typeRefs ↔ FromNames m x s.symbols s.basics)
  | ⟨args, results, v⟩, hv => by
    obtain ⟨h1, h2⟩ := goodArgs_sig hv
    rw [Signature.meaning, GoSig.typeRefs, Signature.symbols, Signature.basics, fromNames_append]
    exact mem_append_iff₂ (refs_args m x _ _ args h1.1 h1.2) (refs_args m x _ _ results h2.1 h2.2)
theorem refs_args (m : Symbol → TypeIdent) (x : TypeIdent) (v named : Bool) : ∀ l : List ArgType, validArgs l = true →
    GoodArgs v l → (x ∈ typeRefsParams (meaningArgs m v named l) ↔ FromNames m x (symbolsArgs l) (basicsArgs l))
  | [], _, _ => by simp [meaningArgs, typeRefsParams, symbolsArgs, basicsArgs, FromNames]
  | ⟨n, t⟩ :: l, hv, hg => by
    rw [validArgs, Bool.and_eq_true] at hv
    rw [meaningArgs, typeRefsParams, symbolsArgs, basicsArgs, fromNames_append,
      hg.param GoType.typeRefs (fun e => by rw [GoType.typeRefs]) m]
    exact mem_append_iff₂ (refs_type m x t hv.1) (refs_args m x v named l hv.2 hg.tail)
theorem refs_fields (m : Symbol → TypeIdent) (x : TypeIdent) : ∀ l : List FieldType, validFields l = true →
    (x ∈ typeRefsFields (meaningFields m l) ↔ FromNames m x (symbolsFields l) (basicsFields l))
  | [], _ => by simp [meaningFields, typeRefsFields, symbolsFields, basicsFields, FromNames]
  | ⟨n, t, g⟩ :: l, hv => by
    rw [validFields, Bool.and_eq_true] at hv
    rw [meaningFields, typeRefsFields, symbolsFields, basicsFields, fromNames_append]
    exact mem_append_iff₂ (refs_type m x t hv.1) (refs_fields m x l hv.2)
theorem refs_methods (m : Symbol → TypeIdent) (x : TypeIdent) : ∀ l : List MethodType, validMethods l = true →
    (x ∈ typeRefsElems (meaningMethods m l) ↔ FromNames m x (symbolsMethods l) (basicsMethods l))
  | [], _ => by simp [meaningMethods, typeRefsElems, symbolsMethods, basicsMethods, FromNames]
  | ⟨n, s⟩ :: l, hv => by
    rw [validMethods, Bool.and_eq_true] at hv
    rw [meaningMethods, typeRefsElems, symbolsMethods, basicsMethods, fromNames_append]
    exact mem_append_iff₂ (refs_sig m x s hv.1) (refs_methods m x l hv.2)
end

theorem awkwardElems_append {N : Type} : ∀ a b : List (GoElem N), awkwardElems (a ++ b) = (awkwardElems a || awkwardElems b)
  | [], b => by simp [awkwardElems]
  | .embed n :: a, b => by
    rw [List.cons_append, awkwardElems, awkwardElems, awkwardElems_append a b]
  | .method n s :: a, b => by
    rw [List.cons_append, awkwardElems, awkwardElems, awkwardElems_append a b, Bool.or_assoc]

theorem awkwardElems_embeds (m : Symbol → TypeIdent) : ∀ es : List Symbol,
    awkwardElems (es.map fun s => .embed (m s)) = false
  | [] => by rw [List.map_nil, awkwardElems]
  | e :: es => by rw [List.map_cons, awkwardElems, awkwardElems_embeds m es]

theorem any_embeds (m : Symbol → TypeIdent) (es : List Symbol) :
    (es.map fun s => GoElem.embed (m s)).any GoElem.isEmbed = !es.isEmpty ∧
      ((es.map fun s => GoElem.embed (m s)).any fun e => !e.isEmbed) = false := by
  induction es with
  | nil => exact ⟨rfl, rfl⟩
  | cons e es ih => simp [GoElem.isEmbed]

theorem any_methods (m : Symbol → TypeIdent) : ∀ ms : List MethodType,
    (meaningMethods m ms).any GoElem.isEmbed = false ∧
      ((meaningMethods m ms).any fun e => !e.isEmbed) = !ms.isEmpty
  | [] => by rw [meaningMethods]; exact ⟨rfl, rfl⟩
  | ⟨n, s⟩ :: l => by
    obtain ⟨h1, -⟩ := any_methods m l
    rw [meaningMethods, List.any_cons, List.any_cons, h1]
    exact ⟨rfl, rfl⟩

theorem isRecvChan_meaning (m : Symbol → TypeIdent) (t : TypeName) : (t.meaning m).isRecvChan = t.isRecvChan := by
  cases t <;> simp only [TypeName.meaning, GoType.isRecvChan, TypeName.isRecvChan]
  rename_i e d
  by_cases h : d = recvDir
  · simp [h, synDir]
  · rw [beq_eq_false_iff_ne.2 h, synDir, if_neg h]
    split
    · rename_i heq
      split at heq <;> cases heq
    · rfl

mutual
theorem awkward_type (m : Symbol → TypeIdent) : ∀ t : TypeName, t.valid = true →
    (t.meaning m).isAwkward = !t.unproblematic
  | .nil, hv => by rw [TypeName.valid] at hv; cases hv
  | .basic k, hv => by simp [TypeName.meaning, GoType.isAwkward, TypeName.unproblematic]
  | .named s, hv => by simp [TypeName.meaning, GoType.isAwkward, TypeName.unproblematic]
  | .ptr e, hv => by
    rw [TypeName.valid] at hv
    rw [TypeName.meaning, GoType.isAwkward, TypeName.unproblematic]; exact awkward_type m e hv
  | .slice e, hv => by
    rw [TypeName.valid] at hv
    rw [TypeName.meaning, GoType.isAwkward, TypeName.unproblematic]; exact awkward_type m e hv
  | .array e _, hv => by
    rw [TypeName.valid, Bool.and_eq_true] at hv
    rw [TypeName.meaning, GoType.isAwkward, TypeName.unproblematic]; exact awkward_type m e hv.1
  | .chan e d, hv => by
    rw [TypeName.valid, Bool.and_eq_true] at hv
    rw [TypeName.meaning, GoType.isAwkward, TypeName.unproblematic, awkward_type m e hv.1, isRecvChan_meaning,
      Bool.not_and, Bool.not_not]
    congr 2
    have := hv.2
    simp only [Bool.or_eq_true, beq_iff_eq] at this
    rcases this with (rfl | rfl) | rfl <;> decide
  | .map e k, hv => by
    rw [TypeName.valid, Bool.and_eq_true] at hv
    rw [TypeName.meaning, GoType.isAwkward, TypeName.unproblematic, awkward_type m e hv.1, awkward_type m k hv.2,
      Bool.not_and, Bool.or_comm]
  | .func s, hv => by
    rw [TypeName.valid] at hv
    rw [TypeName.meaning, GoType.isAwkward, TypeName.unproblematic]; exact awkward_sig m s hv
  | .struct fs, hv => by
    rw [TypeName.valid] at hv
    rw [TypeName.meaning, GoType.isAwkward, TypeName.unproblematic]; exact awkward_fields m fs hv
  | .interface ms es, hv => by
    rw [TypeName.valid] at hv
    rw [TypeName.meaning, GoType.isAwkward, TypeName.unproblematic, awkwardElems_append, awkwardElems_embeds,
      awkward_methods m ms hv, List.any_append, List.any_append, (any_embeds m es).1, (any_embeds m es).2,
      (any_methods m ms).1, (any_methods m ms).2]
    cases es.isEmpty <;> cases ms.isEmpty <;> simp
theorem awkward_sig (m : Symbol → TypeIdent) : ∀ s : Signature, s.valid = true →
    (s.meaning m).isAwkward = !s.unproblematic
  | ⟨args, results, v⟩, hv => by
    obtain ⟨h1, h2⟩ := goodArgs_sig hv
    rw [Signature.meaning, GoSig.isAwkward, Signature.unproblematic, awkward_args m _ _ args h1.1 h1.2,
      awkward_args m _ _ results h2.1 h2.2, Bool.not_and]
theorem awkward_args (m : Symbol → TypeIdent) (v named : Bool) : ∀ l : List ArgType, validArgs l = true →
    GoodArgs v l → awkwardParams (meaningArgs m v named l) = !unproblematicArgs l
  | [], _, _ => by simp [meaningArgs, awkwardParams, unproblematicArgs]
  | ⟨n, t⟩ :: l, hv, hg => by
    rw [validArgs, Bool.and_eq_true] at hv
    rw [meaningArgs, awkwardParams, unproblematicArgs, hg.param GoType.isAwkward (fun e => by rw [GoType.isAwkward]) m,
      awkward_type m t hv.1, awkward_args m v named l hv.2 hg.tail, Bool.not_and]
theorem awkward_fields (m : Symbol → TypeIdent) : ∀ l : List FieldType, validFields l = true →
    awkwardFields (meaningFields m l) = !unproblematicFields l
  | [], _ => by simp [meaningFields, awkwardFields, unproblematicFields]
  | ⟨n, t, g⟩ :: l, hv => by
    rw [validFields, Bool.and_eq_true] at hv
    rw [meaningFields, awkwardFields, unproblematicFields, awkward_type m t hv.1, awkward_fields m l hv.2, Bool.not_and]
theorem awkward_methods (m : Symbol → TypeIdent) : ∀ l : List MethodType, validMethods l = true →
    awkwardElems (meaningMethods m l) = !unproblematicMethods l
  | [], _ => by simp [meaningMethods, awkwardElems, unproblematicMethods]
  | ⟨n, s⟩ :: l, hv => by
    rw [validMethods, Bool.and_eq_true] at hv
    rw [meaningMethods, awkwardElems, unproblematicMethods, awkward_sig m s hv.1, awkward_methods m l hv.2, Bool.not_and]
end

/-- The names of symbols are the names of what they stand for. -/
def NamesKept (m : Symbol → TypeIdent) (ss : List Symbol) : Prop :=
  ∀ s ∈ ss, (m s).name = s.name ∧ (s.package.name = [] ∨ isIdent s.package.name = true)

theorem NamesKept.left {m : Symbol → TypeIdent} {a b : List Symbol} (h : NamesKept m (a ++ b)) : NamesKept m a :=
  fun s hs => h s (List.mem_append_left _ hs)
theorem NamesKept.right {m : Symbol → TypeIdent} {a b : List Symbol} (h : NamesKept m (a ++ b)) : NamesKept m b :=
  fun s hs => h s (List.mem_append_right _ hs)

theorem NamesKept.symbol {m : Symbol → TypeIdent} {l : List Symbol} {s : Symbol} (h : NamesKept m l) (hs : s ∈ l)
    (hi : isIdent (m s).name = true) : s.wellNamed = true := by
  obtain ⟨h1, h2⟩ := h s hs
  rw [h1] at hi
  simp [Symbol.wellNamed, hi, h2]

theorem properElems_append : ∀ a b : List (GoElem TypeIdent), properElems (a ++ b) = (properElems a && properElems b)
  | [], b => by simp [properElems]
  | .embed n :: a, b => by
    rw [List.cons_append, properElems, properElems, properElems_append a b, Bool.and_assoc]
  | .method n s :: a, b => by
    rw [List.cons_append, properElems, properElems, properElems_append a b, Bool.and_assoc, Bool.and_assoc, Bool.and_assoc]

theorem properElems_embeds {m : Symbol → TypeIdent} : ∀ {es : List Symbol}, NamesKept m es →
    properElems (es.map fun s => .embed (m s)) = true → es.all Symbol.wellNamed = true
  | [], _, _ => rfl
  | e :: es, hn, h => by
    rw [List.map_cons, properElems, Bool.and_eq_true] at h
    rw [List.all_cons, Bool.and_eq_true]
    exact ⟨hn.symbol List.mem_cons_self h.1, properElems_embeds (fun s hs => hn s (List.mem_cons_of_mem _ hs)) h.2⟩

theorem isEmbeddable_meaning (m : Symbol → TypeIdent) {t : TypeName} (h : t.valid = true)
    (he : (t.meaning m).isEmbeddable = true) : t.embeddable = true := by
  cases t <;> simp [TypeName.valid, TypeName.meaning, GoType.isEmbeddable, TypeName.embeddable] at h he ⊢
  rename_i e
  cases e <;> simp [TypeName.valid, TypeName.meaning] at h he ⊢

mutual
theorem proper_type (m : Symbol → TypeIdent) : ∀ t : TypeName, t.valid = true → NamesKept m t.symbols →
    (t.meaning m).isProper = true → t.wellNamed = true
  | .nil, hv, _, _ => by rw [TypeName.valid] at hv; cases hv
  | .basic k, _, _, _ => by rw [TypeName.wellNamed]
  | .named s, _, hn, h => by
    rw [TypeName.meaning, GoType.isProper] at h
    rw [TypeName.wellNamed]
    exact hn.symbol (by simp [TypeName.symbols]) h
  | .ptr e, hv, hn, h => by
    rw [TypeName.valid] at hv
    rw [TypeName.symbols] at hn
    rw [TypeName.meaning, GoType.isProper] at h
    rw [TypeName.wellNamed]; exact proper_type m e hv hn h
  | .slice e, hv, hn, h => by
    rw [TypeName.valid] at hv
    rw [TypeName.symbols] at hn
    rw [TypeName.meaning, GoType.isProper] at h
    rw [TypeName.wellNamed]; exact proper_type m e hv hn h
  | .array e _, hv, hn, h => by
    rw [TypeName.valid, Bool.and_eq_true] at hv
    rw [TypeName.symbols] at hn
    rw [TypeName.meaning, GoType.isProper] at h
    rw [TypeName.wellNamed]; exact proper_type m e hv.1 hn h
  | .chan e d, hv, hn, h => by
    rw [TypeName.valid, Bool.and_eq_true] at hv
    rw [TypeName.symbols] at hn
    rw [TypeName.meaning, GoType.isProper] at h
    rw [TypeName.wellNamed]; exact proper_type m e hv.1 hn h
  | .map e k, hv, hn, h => by
    rw [TypeName.valid, Bool.and_eq_true] at hv
    rw [TypeName.symbols] at hn
    rw [TypeName.meaning, GoType.isProper, Bool.and_eq_true] at h
    rw [TypeName.wellNamed, Bool.and_eq_true]
    exact ⟨proper_type m e hv.1 hn.right h.2, proper_type m k hv.2 hn.left h.1⟩
  | .func s, hv, hn, h => by
    rw [TypeName.valid] at hv
    rw [TypeName.symbols] at hn
    rw [TypeName.meaning, GoType.isProper] at h
    rw [TypeName.wellNamed]; exact proper_sig m s hv hn h
  | .struct fs, hv, hn, h => by
    rw [TypeName.valid] at hv
    rw [TypeName.symbols] at hn
    rw [TypeName.meaning, GoType.isProper] at h
    rw [TypeName.wellNamed]; exact proper_fields m fs hv hn h
  | .interface ms es, hv, hn, h => by
    rw [TypeName.valid] at hv
    rw [TypeName.symbols] at hn
    rw [TypeName.meaning, GoType.isProper, properElems_append, Bool.and_eq_true] at h
    rw [TypeName.wellNamed, Bool.and_eq_true]
    exact ⟨proper_methods m ms hv hn.right h.2, properElems_embeds hn.left h.1⟩
theorem proper_sig (m : Symbol → TypeIdent) : ∀ s : Signature, s.valid = true → NamesKept m s.symbols →
    (s.meaning m).isProper = true → s.wellNamed = true
  | ⟨args, results, v⟩, hv, hn, h => by
    obtain ⟨h1, h2⟩ := goodArgs_sig hv
    rw [Signature.symbols] at hn
    rw [Signature.meaning, GoSig.isProper, Bool.and_eq_true] at h
    rw [Signature.wellNamed, Bool.and_eq_true]
    exact ⟨proper_args m _ _ args h1.1 h1.2 hn.left id h.1, proper_args m _ _ results h2.1 h2.2 hn.right id h.2⟩
theorem proper_args (m : Symbol → TypeIdent) (v named : Bool) : ∀ l : List ArgType, validArgs l = true →
    GoodArgs v l → NamesKept m (symbolsArgs l) → (hasNames l = true → named = true) →
    properParams (meaningArgs m v named l) = true → wellNamedArgs l = true
  | [], _, _, _, _, _ => by rw [wellNamedArgs]
  | ⟨n, t⟩ :: l, hv, hg, hn, hh, h => by
    rw [validArgs, Bool.and_eq_true] at hv
    rw [symbolsArgs] at hn
    rw [meaningArgs, properParams, hg.param GoType.isProper (fun e => by rw [GoType.isProper]) m, Bool.and_eq_true,
      Bool.and_eq_true] at h
    rw [wellNamedArgs, Bool.and_eq_true, Bool.and_eq_true]
    refine ⟨⟨?_, proper_type m t hv.1 hn.left h.1.2⟩,
      proper_args m v named l hv.2 hg.tail hn.right (fun e => hh ?_) h.2⟩
    · by_cases hnn : n = []
      · simp [hnn]
      · have h1 := h.1.1
        rw [paramNameOf, if_pos (hh (by simp [hasNames, hnn])), if_neg hnn] at h1
        have : isIdent n = true := h1
        simp [this]
    · rw [hasNames] at e ⊢
      rw [List.any_cons, e, Bool.or_true]
theorem proper_fields (m : Symbol → TypeIdent) : ∀ l : List FieldType, validFields l = true →
    NamesKept m (symbolsFields l) → properFields (meaningFields m l) = true → wellNamedFields l = true
  | [], _, _, _ => by rw [wellNamedFields]
  | ⟨n, t, g⟩ :: l, hv, hn, h => by
    rw [validFields, Bool.and_eq_true] at hv
    rw [symbolsFields] at hn
    rw [meaningFields, properFields, Bool.and_eq_true, Bool.and_eq_true, Bool.and_eq_true] at h
    rw [wellNamedFields, Bool.and_eq_true, Bool.and_eq_true]
    refine ⟨⟨?_, proper_type m t hv.1 hn.left h.1.2⟩, proper_fields m l hv.2 hn.right h.2⟩
    obtain ⟨h1, h2⟩ := h.1.1
    by_cases hnn : n = []
    · rw [optName, if_pos hnn] at h2
      have := isEmbeddable_meaning m hv.1 h2
      simp [hnn, this]
    · rw [optName, if_neg hnn] at h1
      have : isIdent n = true := h1
      simp [this]
theorem proper_methods (m : Symbol → TypeIdent) : ∀ l : List MethodType, validMethods l = true →
    NamesKept m (symbolsMethods l) → properElems (meaningMethods m l) = true → wellNamedMethods l = true
  | [], _, _, _ => by rw [wellNamedMethods]
  | ⟨n, s⟩ :: l, hv, hn, h => by
    rw [validMethods, Bool.and_eq_true] at hv
    rw [symbolsMethods] at hn
    rw [meaningMethods, properElems, Bool.and_eq_true, Bool.and_eq_true] at h
    rw [wellNamedMethods, Bool.and_eq_true, Bool.and_eq_true]
    exact ⟨⟨h.1.1, proper_sig m s hv.1 hn.left h.1.2⟩, proper_methods m l hv.2 hn.right h.2⟩
end

mutual
theorem meaning_congr {m m' : Symbol → TypeIdent} : ∀ t : TypeName, (∀ s ∈ t.symbols, m s = m' s) →
    t.meaning m = t.meaning m'
  | .nil, _ => by simp only [TypeName.meaning]
  | .basic _, _ => by simp only [TypeName.meaning]
  | .named s, h => by rw [TypeName.meaning, TypeName.meaning, h s (by simp [TypeName.symbols])]
  | .ptr e, h => by
    rw [TypeName.symbols] at h
    rw [TypeName.meaning, TypeName.meaning, meaning_congr e h]
  | .slice e, h => by
    rw [TypeName.symbols] at h
    rw [TypeName.meaning, TypeName.meaning, meaning_congr e h]
  | .array e _, h => by
    rw [TypeName.symbols] at h
    rw [TypeName.meaning, TypeName.meaning, meaning_congr e h]
  | .chan e _, h => by
    rw [TypeName.symbols] at h
    rw [TypeName.meaning, TypeName.meaning, meaning_congr e h]
  | .map e k, h => by
    rw [TypeName.symbols] at h
    rw [TypeName.meaning, TypeName.meaning, meaning_congr e fun s hs => h s (List.mem_append_right _ hs),
      meaning_congr k fun s hs => h s (List.mem_append_left _ hs)]
  | .func s, h => by
    rw [TypeName.symbols] at h
    rw [TypeName.meaning, TypeName.meaning, meaning_congr_sig s h]
  | .struct fs, h => by
    rw [TypeName.symbols] at h
    rw [TypeName.meaning, TypeName.meaning, meaning_congr_fields fs h]
  | .interface ms es, h => by
    rw [TypeName.symbols] at h
    rw [TypeName.meaning, TypeName.meaning, meaning_congr_methods ms fun s hs => h s (List.mem_append_right _ hs)]
    congr 2
    exact List.map_congr_left fun s hs => by rw [h s (List.mem_append_left _ hs)]
theorem meaning_congr_sig {m m' : Symbol → TypeIdent} : ∀ t : Signature, (∀ s ∈ t.symbols, m s = m' s) →
    t.meaning m = t.meaning m'
  | ⟨args, results, v⟩, h => by
    rw [Signature.symbols] at h
    rw [Signature.meaning, Signature.meaning, meaning_congr_args v _ args fun s hs => h s (List.mem_append_left _ hs),
      meaning_congr_args false _ results fun s hs => h s (List.mem_append_right _ hs)]
theorem meaning_congr_args {m m' : Symbol → TypeIdent} (v named : Bool) : ∀ l : List ArgType,
    (∀ s ∈ symbolsArgs l, m s = m' s) → meaningArgs m v named l = meaningArgs m' v named l
  | [], _ => by simp only [meaningArgs]
  | ⟨n, t⟩ :: l, h => by
    rw [symbolsArgs] at h
    have h1 : ∀ s ∈ t.symbols, m s = m' s := fun s hs => h s (List.mem_append_left _ hs)
    rw [meaningArgs, meaningArgs, meaning_congr t h1, meaning_congr_elem t h1,
      meaning_congr_args v named l fun s hs => h s (List.mem_append_right _ hs)]
theorem meaning_congr_elem {m m' : Symbol → TypeIdent} : ∀ t : TypeName, (∀ s ∈ t.symbols, m s = m' s) →
    meaningElem m t = meaningElem m' t
  | .slice e, h => by
    rw [TypeName.symbols] at h
    rw [meaningElem, meaningElem, meaning_congr e h]
  | .nil, _ | .basic _, _ | .named _, _ | .ptr _, _ | .array _ _, _ | .map _ _, _ | .chan _ _, _ | .func _, _
  | .struct _, _ | .interface _ _, _ => by simp [meaningElem]
theorem meaning_congr_fields {m m' : Symbol → TypeIdent} : ∀ l : List FieldType,
    (∀ s ∈ symbolsFields l, m s = m' s) → meaningFields m l = meaningFields m' l
  | [], _ => by simp only [meaningFields]
  | ⟨n, t, _⟩ :: l, h => by
    rw [symbolsFields] at h
    rw [meaningFields, meaningFields, meaning_congr t fun s hs => h s (List.mem_append_left _ hs),
      meaning_congr_fields l fun s hs => h s (List.mem_append_right _ hs)]
theorem meaning_congr_methods {m m' : Symbol → TypeIdent} : ∀ l : List MethodType,
    (∀ s ∈ symbolsMethods l, m s = m' s) → meaningMethods m l = meaningMethods m' l
  | [], _ => by simp only [meaningMethods]
  | ⟨n, t⟩ :: l, h => by
    rw [symbolsMethods] at h
    rw [meaningMethods, meaningMethods, meaning_congr_sig t fun s hs => h s (List.mem_append_left _ hs),
      meaning_congr_methods l fun s hs => h s (List.mem_append_right _ hs)]
end

end Gopoet
