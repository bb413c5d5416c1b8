import Verif.Proof.Shape
import Mathlib.Tactic.Tauto
/-! Resolving the names of the syntax of a type gives its meaning. -/

namespace Gopoet

theorem isEmpty_mapSymbolsArgs (g : Symbol → Symbol) (l : List ArgType) :
    (mapSymbolsArgs g l).isEmpty = l.isEmpty := by
  cases l with
  | nil => rfl
  | cons a l => obtain ⟨n, t⟩ := a; rfl

theorem resolveElems_append {N M : Type} (f : N → Option M) : ∀ (a b : List (GoElem N)) a' b',
    resolveElems f a = some a' → resolveElems f b = some b' →
    resolveElems f (a ++ b) = some (a' ++ b')
  | [], b, a', b', ha, hb => by simp only [resolveElems, Option.some.injEq] at ha; simpa [← ha] using hb
  | .embed n :: a, b, a', b', ha, hb => by
    simp only [List.cons_append, resolveElems] at ha ⊢
    cases hn : f n with
    | none => rw [hn] at ha; simp at ha
    | some n' =>
      rw [hn] at ha
      cases hl : resolveElems f a with
      | none => rw [hl] at ha; simp at ha
      | some l =>
        rw [hl] at ha
        simp only [Option.bind_some, Option.map_some, Option.some.injEq] at ha ⊢
        rw [resolveElems_append f a b l b' hl hb, ← ha]; rfl
  | .method n s :: a, b, a', b', ha, hb => by
    simp only [List.cons_append, resolveElems] at ha ⊢
    cases hn : s.resolve f with
    | none => rw [hn] at ha; simp at ha
    | some n' =>
      rw [hn] at ha
      cases hl : resolveElems f a with
      | none => rw [hl] at ha; simp at ha
      | some l =>
        rw [hl] at ha
        simp only [Option.bind_some, Option.map_some, Option.some.injEq] at ha ⊢
        rw [resolveElems_append f a b l b' hl hb, ← ha]; rfl

section
variable {f : SynName → Option TypeIdent} {g : Symbol → Symbol} {m : Symbol → TypeIdent}

theorem resolve_embeds : ∀ {es : List Symbol}, (∀ s ∈ es, f (g s).syntaxName = some (m s)) →
    resolveElems f ((es.map g).map (fun s => .embed s.syntaxName))
      = some (es.map (fun s => .embed (m s)))
  | [], _ => rfl
  | s :: es, h => by
    simp only [List.map_cons, resolveElems]
    rw [h s (by simp), resolve_embeds (es := es) (fun x hx => h x (by simp [hx]))]
    rfl

/-- The names resolve as the meaning says. -/
def Resolves (f : SynName → Option TypeIdent) (g : Symbol → Symbol) (m : Symbol → TypeIdent)
    (ss : List Symbol) (ks : List ReflectKind) : Prop :=
  (∀ s ∈ ss, f (g s).syntaxName = some (m s)) ∧ ∀ k ∈ ks, f (none, predeclared k) = some (kindIdent k)

theorem Resolves.mono {ss ss' ks ks'} (h : Resolves f g m ss ks) (hs : ∀ s ∈ ss', s ∈ ss)
    (hk : ∀ k ∈ ks', k ∈ ks) : Resolves f g m ss' ks' :=
  ⟨fun s hs' => h.1 s (hs s hs'), fun k hk' => h.2 k (hk k hk')⟩

mutual
theorem resolve_type : ∀ {t : TypeName}, t.valid = true → Resolves f g m t.symbols t.basics →
    (t.mapSymbols g).syntax.resolve f = some (t.meaning m)
  | .nil, h, _ => by simp [TypeName.valid] at h
  | .basic k, _, h => by
    have := h.2 k (by simp [TypeName.basics])
    simp [TypeName.mapSymbols, TypeName.syntax, GoType.resolve, TypeName.meaning, this]
  | .named s, _, h => by
    have := h.1 s (by simp [TypeName.symbols])
    simp [TypeName.mapSymbols, TypeName.syntax, GoType.resolve, TypeName.meaning, this]
  | .ptr e, hv, h => by
    have ih := resolve_type (t := e) hv h
    simp [TypeName.mapSymbols, TypeName.syntax, GoType.resolve, TypeName.meaning, ih]
  | .slice e, hv, h => by
    have ih := resolve_type (t := e) hv h
    simp [TypeName.mapSymbols, TypeName.syntax, GoType.resolve, TypeName.meaning, ih]
  | .array e n, hv, h => by
    simp only [TypeName.valid, Bool.and_eq_true] at hv
    have ih := resolve_type (t := e) hv.1 h
    simp [TypeName.mapSymbols, TypeName.syntax, GoType.resolve, TypeName.meaning, ih]
  | .map e k, hv, h => by
    simp only [TypeName.valid, Bool.and_eq_true] at hv
    have ih := resolve_type (t := e) hv.1 (h.mono (by simp [TypeName.symbols]; tauto)
      (by simp [TypeName.basics]; tauto))
    have ihk := resolve_type (t := k) hv.2 (h.mono (by simp [TypeName.symbols]; tauto)
      (by simp [TypeName.basics]; tauto))
    simp [TypeName.mapSymbols, TypeName.syntax, GoType.resolve, TypeName.meaning, ih, ihk]
  | .chan e d, hv, h => by
    simp only [TypeName.valid, Bool.and_eq_true] at hv
    have ih := resolve_type (t := e) hv.1 h
    simp [TypeName.mapSymbols, TypeName.syntax, GoType.resolve, TypeName.meaning, ih]
  | .func s, hv, h => by
    have ih := resolve_sig (s := s) hv h
    simp [TypeName.mapSymbols, TypeName.syntax, GoType.resolve, TypeName.meaning, ih]
  | .struct fs, hv, h => by
    have ih := resolve_fields (fs := fs) hv h
    simp [TypeName.mapSymbols, TypeName.syntax, GoType.resolve, TypeName.meaning, ih]
  | .interface ms es, hv, h => by
    have ih := resolve_methods (ms := ms) hv (h.mono (by simp [TypeName.symbols]; tauto)
      (by simp [TypeName.basics]))
    have ihe := resolve_embeds (es := es) (f := f) (g := g) (m := m)
      (fun s hs => h.1 s (by simp [TypeName.symbols, hs]))
    have := resolveElems_append f _ _ _ _ ihe ih
    rw [TypeName.mapSymbols, TypeName.syntax, GoType.resolve, this]; rfl
theorem resolve_sig : ∀ {s : Signature}, s.valid = true → Resolves f g m s.symbols s.basics →
    (s.mapSymbols g).syntax.resolve f = some (s.meaning m)
  | ⟨args, results, v⟩, hv, h => by
    simp only [Signature.valid, Bool.and_eq_true, Bool.or_eq_true, Bool.not_eq_true'] at hv
    have iha := resolve_args (l := args) (v := v) (named := hasNames args) hv.1.1 (by
      intro hv' _; rcases hv.2 with h' | h'
      · simp [hv'] at h'
      · exact h') (h.mono (by simp [Signature.symbols]; tauto) (by simp [Signature.basics]; tauto))
    have ihr := resolve_args (l := results) (v := false) (named := hasNames results) hv.1.2 (by simp)
      (h.mono (by simp [Signature.symbols]; tauto) (by simp [Signature.basics]; tauto))
    simp [Signature.mapSymbols, Signature.syntax, GoSig.resolve, Signature.meaning,
      hasNames_mapSymbols, iha, ihr]
theorem resolve_args : ∀ {l : List ArgType} {v named : Bool}, validArgs l = true →
    (v = true → l ≠ [] → lastIsSlice l = true) → Resolves f g m (symbolsArgs l) (basicsArgs l) →
    resolveParams f (syntaxArgs v named (mapSymbolsArgs g l)) = some (meaningArgs m v named l)
  | [], _, _, _, _, _ => rfl
  | ⟨n, t⟩ :: l, v, named, hv, hs, h => by
    simp only [validArgs, Bool.and_eq_true] at hv
    have ih := resolve_args (l := l) (v := v) (named := named) hv.2 (by
      intro hv' hne
      have := hs hv' (by simp)
      cases l with
      | nil => simp at hne
      | cons b l => simpa [lastIsSlice, List.getLast?_cons_cons] using this)
      (h.mono (by simp [symbolsArgs]; tauto) (by simp [basicsArgs]; tauto))
    rw [mapSymbolsArgs, syntaxArgs, resolveParams, isEmpty_mapSymbolsArgs, ih, meaningArgs]
    by_cases hc : (v && l.isEmpty) = true
    · have hc' := hc
      simp only [Bool.and_eq_true, List.isEmpty_iff] at hc'
      obtain ⟨hv', rfl⟩ := hc'
      have hsl := hs hv' (by simp)
      rw [if_pos hc, if_pos hc]
      match t, hv, h, hsl with
      | .slice e, hv, h, _ =>
        have iht := resolve_type (t := e) hv.1 (h.mono (by simp [symbolsArgs, TypeName.symbols])
          (by simp [basicsArgs, TypeName.basics]))
        rw [TypeName.mapSymbols, syntaxElem, iht]; rfl
    · have iht := resolve_type (t := t) hv.1 (h.mono (by simp [symbolsArgs]; tauto)
        (by simp [basicsArgs]; tauto))
      rw [if_neg hc, if_neg hc, iht]; rfl
theorem resolve_fields : ∀ {fs : List FieldType}, validFields fs = true →
    Resolves f g m (symbolsFields fs) (basicsFields fs) →
    resolveFields f (syntaxFields (mapSymbolsFields g fs)) = some (meaningFields m fs)
  | [], _, _ => rfl
  | ⟨n, t, tag⟩ :: fs, hv, h => by
    simp only [validFields, Bool.and_eq_true] at hv
    have ih := resolve_fields (fs := fs) hv.2 (h.mono (by simp [symbolsFields]; tauto)
      (by simp [basicsFields]; tauto))
    have iht := resolve_type (t := t) hv.1 (h.mono (by simp [symbolsFields]; tauto)
      (by simp [basicsFields]; tauto))
    rw [mapSymbolsFields, syntaxFields, resolveFields, iht, ih]; rfl
theorem resolve_methods : ∀ {ms : List MethodType}, validMethods ms = true →
    Resolves f g m (symbolsMethods ms) (basicsMethods ms) →
    resolveElems f (syntaxMethods (mapSymbolsMethods g ms)) = some (meaningMethods m ms)
  | [], _, _ => rfl
  | ⟨n, s⟩ :: ms, hv, h => by
    simp only [validMethods, Bool.and_eq_true] at hv
    have ih := resolve_methods (ms := ms) hv.2 (h.mono (by simp [symbolsMethods]; tauto)
      (by simp [basicsMethods]; tauto))
    have ihs := resolve_sig (s := s) hv.1 (h.mono (by simp [symbolsMethods]; tauto)
      (by simp [basicsMethods]; tauto))
    rw [mapSymbolsMethods, syntaxMethods, resolveElems, ihs, ih]; rfl
end

theorem Resolves.append {ss ss' ks ks'} (h : Resolves f g m ss ks) (h' : Resolves f g m ss' ks') :
    Resolves f g m (ss ++ ss') (ks ++ ks') :=
  ⟨fun s hs => (List.mem_append.1 hs).elim (h.1 s) (h'.1 s), fun k hk => (List.mem_append.1 hk).elim (h.2 k) (h'.2 k)⟩

theorem embeds_of_resolve {b : List (GoElem SynName)} {b' : List (GoElem TypeIdent)} : ∀ {es : List Symbol},
    resolveElems f ((es.map g).map (fun s => .embed s.syntaxName) ++ b)
      = some (es.map (fun s => .embed (m s)) ++ b') →
    (∀ s ∈ es, f (g s).syntaxName = some (m s)) ∧ resolveElems f b = some b'
  | [], h => ⟨by simp, by simpa using h⟩
  | s :: es, h => by
    simp only [List.map_cons, List.cons_append, resolveElems, Option.bind_eq_some_iff, Option.map_eq_some_iff,
      List.cons.injEq, GoElem.embed.injEq] at h
    obtain ⟨x, hx, y, hy, rfl, rfl⟩ := h
    obtain ⟨h1, h2⟩ := embeds_of_resolve (es := es) hy
    refine ⟨fun s' hs => ?_, h2⟩
    rcases List.mem_cons.1 hs with rfl | hs
    · exact hx
    · exact h1 s' hs

mutual
/-- If the names of the syntax of a type resolve to its meaning, each of its names does. -/
theorem of_resolve_type : ∀ {t : TypeName}, t.valid = true →
    (t.mapSymbols g).syntax.resolve f = some (t.meaning m) → Resolves f g m t.symbols t.basics
  | .nil, h, _ => by simp [TypeName.valid] at h
  | .basic k, _, h => by
    simp only [TypeName.mapSymbols, TypeName.syntax, GoType.resolve, TypeName.meaning, Option.map_eq_some_iff,
      GoType.name.injEq, exists_eq_right] at h
    exact ⟨by simp [TypeName.symbols], by simpa [TypeName.basics] using h⟩
  | .named s, _, h => by
    simp only [TypeName.mapSymbols, TypeName.syntax, GoType.resolve, TypeName.meaning, Option.map_eq_some_iff,
      GoType.name.injEq, exists_eq_right] at h
    exact ⟨by simpa [TypeName.symbols] using h, by simp [TypeName.basics]⟩
  | .ptr e, hv, h => by
    simp only [TypeName.mapSymbols, TypeName.syntax, GoType.resolve, TypeName.meaning, Option.map_eq_some_iff,
      GoType.ptr.injEq, exists_eq_right] at h
    exact of_resolve_type (t := e) hv h
  | .slice e, hv, h => by
    simp only [TypeName.mapSymbols, TypeName.syntax, GoType.resolve, TypeName.meaning, Option.map_eq_some_iff,
      GoType.slice.injEq, exists_eq_right] at h
    exact of_resolve_type (t := e) hv h
  | .array e n, hv, h => by
    simp only [TypeName.valid, Bool.and_eq_true] at hv
    simp only [TypeName.mapSymbols, TypeName.syntax, GoType.resolve, TypeName.meaning, Option.map_eq_some_iff,
      GoType.array.injEq, true_and, exists_eq_right] at h
    exact of_resolve_type (t := e) hv.1 h
  | .map e k, hv, h => by
    simp only [TypeName.valid, Bool.and_eq_true] at hv
    simp only [TypeName.mapSymbols, TypeName.syntax, GoType.resolve, TypeName.meaning, Option.map_eq_some_iff,
      Option.bind_eq_some_iff, GoType.map.injEq] at h
    obtain ⟨x, hx, y, hy, rfl, rfl⟩ := h
    exact ((of_resolve_type (t := e) hv.1 hy).append (of_resolve_type (t := k) hv.2 hx)).mono
      (by simp [TypeName.symbols]; tauto) (by simp [TypeName.basics])
  | .chan e d, hv, h => by
    simp only [TypeName.valid, Bool.and_eq_true] at hv
    simp only [TypeName.mapSymbols, TypeName.syntax, GoType.resolve, TypeName.meaning, Option.map_eq_some_iff,
      GoType.chan.injEq, true_and, exists_eq_right] at h
    exact of_resolve_type (t := e) hv.1 h
  | .func s, hv, h => by
    simp only [TypeName.mapSymbols, TypeName.syntax, GoType.resolve, TypeName.meaning, Option.map_eq_some_iff,
      GoType.func.injEq, exists_eq_right] at h
    exact of_resolve_sig (s := s) hv h
  | .struct fs, hv, h => by
    simp only [TypeName.mapSymbols, TypeName.syntax, GoType.resolve, TypeName.meaning, Option.map_eq_some_iff,
      GoType.struct.injEq, exists_eq_right] at h
    exact of_resolve_fields (fs := fs) hv h
  | .interface ms es, hv, h => by
    simp only [TypeName.mapSymbols, TypeName.syntax, GoType.resolve, TypeName.meaning, Option.map_eq_some_iff,
      GoType.iface.injEq, exists_eq_right] at h
    obtain ⟨h1, h2⟩ := embeds_of_resolve h
    have := of_resolve_methods (ms := ms) hv h2
    exact ⟨fun s hs => (List.mem_append.1 hs).elim (h1 s) (this.1 s), this.2⟩
/-- see `of_resolve_type` -/
theorem of_resolve_sig : ∀ {s : Signature}, s.valid = true →
    (s.mapSymbols g).syntax.resolve f = some (s.meaning m) → Resolves f g m s.symbols s.basics
  | ⟨args, results, v⟩, hv, h => by
    simp only [Signature.valid, Bool.and_eq_true, Bool.or_eq_true, Bool.not_eq_true'] at hv
    simp only [Signature.mapSymbols, Signature.syntax, GoSig.resolve, Signature.meaning, hasNames_mapSymbols,
      Option.map_eq_some_iff, Option.bind_eq_some_iff, GoSig.mk.injEq, true_and] at h
    obtain ⟨x, hx, y, hy, rfl, rfl⟩ := h
    exact (of_resolve_args hv.1.1 (by
      intro hv' _; rcases hv.2 with h' | h'
      · simp [hv'] at h'
      · exact h') hx).append (of_resolve_args hv.1.2 (by simp) hy)
/-- see `of_resolve_type` -/
theorem of_resolve_args : ∀ {l : List ArgType} {v named : Bool}, validArgs l = true →
    (v = true → l ≠ [] → lastIsSlice l = true) →
    resolveParams f (syntaxArgs v named (mapSymbolsArgs g l)) = some (meaningArgs m v named l) →
    Resolves f g m (symbolsArgs l) (basicsArgs l)
  | [], _, _, _, _, _ => ⟨by simp [symbolsArgs], by simp [basicsArgs]⟩
  | ⟨n, t⟩ :: l, v, named, hv, hs, h => by
    simp only [validArgs, Bool.and_eq_true] at hv
    rw [mapSymbolsArgs, syntaxArgs, resolveParams, isEmpty_mapSymbolsArgs, meaningArgs] at h
    simp only [Option.map_eq_some_iff, Option.bind_eq_some_iff, List.cons.injEq, GoParam.mk.injEq, true_and] at h
    obtain ⟨x, hx, y, hy, rfl, rfl⟩ := h
    refine Resolves.append ?_ (of_resolve_args (l := l) (v := v) (named := named) hv.2 (by
      intro hv' hne
      have := hs hv' (by simp)
      cases l with
      | nil => simp at hne
      | cons b l => simpa [lastIsSlice, List.getLast?_cons_cons] using this) hy)
    by_cases hc : (v && l.isEmpty) = true
    · have hc' := hc
      simp only [Bool.and_eq_true, List.isEmpty_iff] at hc'
      obtain ⟨hv', rfl⟩ := hc'
      have hsl := hs hv' (by simp)
      rw [if_pos hc, if_pos hc] at hx
      match t, hv, hx, hsl with
      | .slice e, hv, hx, _ => exact of_resolve_type (t := e) hv.1 hx
    · rw [if_neg hc, if_neg hc] at hx
      exact of_resolve_type (t := t) hv.1 hx
/-- see `of_resolve_type` -/
theorem of_resolve_fields : ∀ {fs : List FieldType}, validFields fs = true →
    resolveFields f (syntaxFields (mapSymbolsFields g fs)) = some (meaningFields m fs) →
    Resolves f g m (symbolsFields fs) (basicsFields fs)
  | [], _, _ => ⟨by simp [symbolsFields], by simp [basicsFields]⟩
  | ⟨n, t, tag⟩ :: fs, hv, h => by
    simp only [validFields, Bool.and_eq_true] at hv
    simp only [mapSymbolsFields, syntaxFields, resolveFields, meaningFields, Option.map_eq_some_iff,
      Option.bind_eq_some_iff, List.cons.injEq, GoField.mk.injEq, true_and, and_true] at h
    obtain ⟨x, hx, y, hy, rfl, rfl⟩ := h
    exact (of_resolve_type (t := t) hv.1 hx).append (of_resolve_fields (fs := fs) hv.2 hy)
/-- see `of_resolve_type` -/
theorem of_resolve_methods : ∀ {ms : List MethodType}, validMethods ms = true →
    resolveElems f (syntaxMethods (mapSymbolsMethods g ms)) = some (meaningMethods m ms) →
    Resolves f g m (symbolsMethods ms) (basicsMethods ms)
  | [], _, _ => ⟨by simp [symbolsMethods], by simp [basicsMethods]⟩
  | ⟨n, s⟩ :: ms, hv, h => by
    simp only [validMethods, Bool.and_eq_true] at hv
    simp only [mapSymbolsMethods, syntaxMethods, resolveElems, meaningMethods, Option.map_eq_some_iff,
      Option.bind_eq_some_iff, List.cons.injEq, GoElem.method.injEq, true_and] at h
    obtain ⟨x, hx, y, hy, rfl, rfl⟩ := h
    exact (of_resolve_sig (s := s) hv.1 hx).append (of_resolve_methods (ms := ms) hv.2 hy)
end
end

end Gopoet
