import Verif.Spec.Reflect
import Verif.Proof.GoTypesLemmas
/-! Lemmas about the conversion from reflect.Type. -/

namespace Gopoet

theorem isSlice_of_rconv {t : RT} {n : TypeName} (h : typeNameForReflectType t = .ok n)
    (ht : ∃ e, t = .slice e) : ∃ e, n = .slice e := by
  obtain ⟨e, rfl⟩ := ht
  obtain ⟨a, h1, h⟩ := bind_eq_ok h
  unfold sliceType at h
  split at h
  · cases h
  · cases h; exact ⟨a, rfl⟩

theorem hasNames_false {as : List ArgType} (h : ∀ a ∈ as, a.name = []) : hasNames as = false := by
  simp only [hasNames, List.any_eq_false, decide_eq_true_eq]
  intro a ha; simp [h a ha]

mutual
theorem rconv_type : ∀ (t : RT), t.wf = true → t.handled = true →
    ∃ n, typeNameForReflectType t = .ok n ∧ n.valid = true ∧ n.meaning Symbol.ident = t.denotes
  | .defined k path n, hw, _ => by
    simp only [RT.wf, Bool.and_eq_true, Bool.or_eq_true, bne_iff_ne, ne_eq, beq_iff_eq] at hw
    obtain ⟨hn, hw⟩ := hw
    by_cases hp : path = []
    · subst hp
      by_cases hk : k.isBasic = true
      · refine ⟨.basic k, ?_, hk, ?_⟩
        · simp only [typeNameForReflectType, hk, beq_self_eq_true, Bool.and_self, if_true]
          cases k <;> first | rfl | cases hk
        · rcases hw with (hw | hw) | hw
          · exact absurd rfl hw
          · simp [TypeName.meaning, RT.denotes, hw.2]
          · rw [hw.1] at hk; cases hk
      · refine ⟨.named ⟨⟨[], []⟩, n⟩, ?_, rfl, ?_⟩
        · simp [typeNameForReflectType, hk, hn, namedType]
        · simp [TypeName.meaning, RT.denotes, Symbol.ident]
    · refine ⟨.named ⟨⟨path, []⟩, n⟩, ?_, rfl, ?_⟩
      · simp [typeNameForReflectType, hp, hn, namedType]
      · simp [TypeName.meaning, RT.denotes, Symbol.ident, hp]
  | .ptr e, hw, hh => by
    obtain ⟨a, h1, h2, h3⟩ := rconv_type e hw hh
    refine ⟨.ptr a, ?_, h2, ?_⟩
    · simp [typeNameForReflectType, h1, pointerType, isNil_false h2]
    · simp [TypeName.meaning, RT.denotes, h3]
  | .slice e, hw, hh => by
    obtain ⟨a, h1, h2, h3⟩ := rconv_type e hw hh
    refine ⟨.slice a, ?_, h2, ?_⟩
    · simp [typeNameForReflectType, h1, sliceType, isNil_false h2]
    · simp [TypeName.meaning, RT.denotes, h3]
  | .array e n, hw, hh => by
    obtain ⟨a, h1, h2, h3⟩ := rconv_type e hw hh
    refine ⟨.array a n, ?_, ?_, ?_⟩
    · simp only [typeNameForReflectType, h1, Outcome.bind_ok, arrayType, isNil_false h2,
        Bool.false_or, decide_eq_true_eq]
      rw [if_neg (by omega)]
    · simp [TypeName.valid, h2]
    · simp [TypeName.meaning, RT.denotes, h3]
  | .chan d e, hw, hh => by
    simp only [RT.wf, Bool.and_eq_true] at hw
    obtain ⟨a, h1, h2, h3⟩ := rconv_type e hw.1 hh
    have hv : (TypeName.chan a d).valid = true := by
      simp only [TypeName.valid, h2, Bool.true_and]; exact hw.2
    refine ⟨.chan a d, ?_, hv, ?_⟩
    · simp [typeNameForReflectType, h1, channelType_valid hv]
    · simp [TypeName.meaning, RT.denotes, h3]
  | .map _ _, _, hh => by cases hh
  | .func s, hw, hh => by
    obtain ⟨a, h1, h2, h3⟩ := rconv_sig s hw hh
    refine ⟨.func a, ?_, h2, ?_⟩
    · simp [typeNameForReflectType, h1, funcTypeFromSig_valid h2]
    · simp [TypeName.meaning, RT.denotes, h3]
  | .struct fs, hw, hh => by
    obtain ⟨a, h1, h2, h3⟩ := rconv_fields fs hw hh
    refine ⟨.struct a, ?_, h2, ?_⟩
    · simp [typeNameForReflectType, h1, structType]
    · simp [TypeName.meaning, RT.denotes, h3]
  | .interface ms, hw, hh => by
    obtain ⟨a, h1, h2, h3⟩ := rconv_methods ms hw hh
    refine ⟨.interface a [], ?_, h2, ?_⟩
    · simp [typeNameForReflectType, h1, interfaceType]
    · simp [TypeName.meaning, RT.denotes, h3]
theorem rconv_sig : ∀ (s : RTSig), s.wf = true → s.handled = true →
    ∃ n, signatureFromReflectType s = .ok n ∧ n.valid = true ∧ n.meaning Symbol.ident = s.denotes
  | .mk ins outs v, hw, hh => by
    simp only [RTSig.wf, Bool.and_eq_true, Bool.or_eq_true, Bool.not_eq_true'] at hw
    simp only [RTSig.handled, Bool.and_eq_true, List.isEmpty_iff] at hh
    obtain ⟨hh, rfl⟩ := hh
    obtain ⟨⟨hw1, _⟩, hv⟩ := hw
    have hv' : v = true → lastRIsSlice ins = true := by
      intro h; rcases hv with h' | h'
      · rw [h'] at h; cases h
      · exact h'
    obtain ⟨as, h1, h2, h3, h4, h5⟩ := rconv_vars ins hw1 hh
    refine ⟨⟨as, [], v⟩, ?_, ?_, ?_⟩
    · simp [signatureFromReflectType, h1, storeResults]
    · simp only [Signature.valid, h2, validArgs, Bool.and_self, Bool.true_and, Bool.or_eq_true,
        Bool.not_eq_true']
      cases v with
      | false => exact .inl rfl
      | true => right; exact h5 (hv' rfl)
    · simp only [Signature.meaning, RTSig.denotes, denoteRVars, meaningArgs, hasNames_false h3]
      rw [h4 v (fun h => .inr (hv' h))]
theorem rconv_vars : ∀ (l : List RT), wfRVars l = true → handledVars l = true →
    ∃ as, argsForReflectType l = .ok as ∧ validArgs as = true ∧ (∀ a ∈ as, a.name = []) ∧
      (∀ v, (v = true → l = [] ∨ lastRIsSlice l = true) →
        meaningArgs Symbol.ident v false as = denoteRVars v l) ∧
      (lastRIsSlice l = true → lastIsSlice as = true)
  | [], _, _ => ⟨[], rfl, rfl, by simp, fun _ _ => rfl, by simp [lastRIsSlice]⟩
  | t :: l, hw, hh => by
    simp only [wfRVars, Bool.and_eq_true] at hw
    simp only [handledVars, Bool.and_eq_true] at hh
    obtain ⟨a, h1, h2, h3⟩ := rconv_type t hw.1 hh.1
    obtain ⟨as, g1, g2, g3, g4, g5⟩ := rconv_vars l hw.2 hh.2
    have hlen : as.isEmpty = l.isEmpty := by
      cases l with
      | nil => cases g1; rfl
      | cons x l =>
        obtain ⟨y, _, g1⟩ := bind_eq_ok g1
        obtain ⟨z, _, g1⟩ := bind_eq_ok g1
        cases g1; rfl
    refine ⟨⟨[], a⟩ :: as, ?_, ?_, ?_, ?_, ?_⟩
    · simp [argsForReflectType, h1, g1]
    · simp [validArgs, h2, g2]
    · simpa using g3
    · intro v hv
      have hsub : v = true → l = [] ∨ lastRIsSlice l = true := by
        intro h
        rcases hv h with h | h
        · cases h
        · cases l with
          | nil => exact .inl rfl
          | cons x l => right; simpa [lastRIsSlice] using h
      simp only [meaningArgs, denoteRVars, hlen, g4 v hsub, paramNameOf]
      by_cases hc : (v && l.isEmpty) = true
      · have hs : ∃ e, t = .slice e := by
          simp only [Bool.and_eq_true, List.isEmpty_iff] at hc
          rcases hv hc.1 with h | h
          · cases h
          · obtain ⟨_, hl⟩ := hc; subst hl
            cases t <;> simp [lastRIsSlice] at h ⊢
        obtain ⟨e, rfl⟩ := hs
        obtain ⟨b, rfl⟩ := isSlice_of_rconv h1 ⟨_, rfl⟩
        simp only [TypeName.meaning, RT.denotes, GoType.slice.injEq] at h3
        simp [hc, meaningElem, denoteRElem, h3]
      · simp [hc, h3]
    · intro hl
      cases l with
      | nil =>
        have : as = [] := by simpa using hlen
        subst this
        have hs : ∃ e, t = .slice e := by cases t <;> simp [lastRIsSlice] at hl ⊢
        obtain ⟨b, rfl⟩ := isSlice_of_rconv h1 hs
        rfl
      | cons x l =>
        cases as with
        | nil => simp at hlen
        | cons y as =>
          rw [lastIsSlice_cons_cons]
          exact g5 (by simpa [lastRIsSlice] using hl)
theorem rconv_fields : ∀ (l : List RTField), wfRFields l = true → handledFields l = true →
    ∃ fs, fieldsForReflectType l = .ok fs ∧ validFields fs = true ∧
      meaningFields Symbol.ident fs = denoteRFields l
  | [], _, _ => ⟨[], rfl, rfl, rfl⟩
  | .mk n an t tag :: l, hw, hh => by
    simp only [wfRFields, Bool.and_eq_true, bne_iff_ne, ne_eq] at hw
    simp only [handledFields, Bool.and_eq_true, Bool.not_eq_true'] at hh
    obtain ⟨a, h1, h2, h3⟩ := rconv_type t hw.1.2 hh.1.2
    obtain ⟨as, g1, g2, g3⟩ := rconv_fields l hw.2 hh.2
    refine ⟨⟨n, a, tag⟩ :: as, ?_, ?_, ?_⟩
    · simp [fieldsForReflectType, h1, g1]
    · simp [validFields, h2, g2]
    · simp [meaningFields, denoteRFields, hh.1.1, h3, g3, optName, hw.1.1]
theorem rconv_methods : ∀ (l : List RTMethod), wfRMethods l = true → handledMethods l = true →
    ∃ ms, methodsForReflectType l = .ok ms ∧ validMethods ms = true ∧
      meaningMethods Symbol.ident ms = denoteRMethods l
  | [], _, _ => ⟨[], rfl, rfl, rfl⟩
  | .mk n s :: l, hw, hh => by
    simp only [wfRMethods, Bool.and_eq_true] at hw
    simp only [handledMethods, Bool.and_eq_true] at hh
    obtain ⟨a, h1, h2, h3⟩ := rconv_sig s hw.1 hh.1
    obtain ⟨as, g1, g2, g3⟩ := rconv_methods l hw.2 hh.2
    refine ⟨⟨n, a⟩ :: as, ?_, ?_, ?_⟩
    · simp [methodsForReflectType, h1, g1]
    · simp [validMethods, h2, g2]
    · simp [meaningMethods, denoteRMethods, h3, g3]
end

/-! ### The converse -/

theorem rconv_names : ∀ (l : List RT) {as : List ArgType}, argsForReflectType l = .ok as →
    (∀ a ∈ as, a.name = []) ∧ as.isEmpty = l.isEmpty
  | [], as, h => by
    cases h
    simp
  | t :: l, as, h => by
    obtain ⟨a, h1, h⟩ := bind_eq_ok h
    obtain ⟨r, h2, h⟩ := bind_eq_ok h
    cases h
    simpa using (rconv_names l h2).1

theorem pointerType_ok {a n : TypeName} (h : pointerType a = .ok n) : n = .ptr a := by
  unfold pointerType at h
  split at h <;> cases h
  rfl

theorem sliceType_ok {a n : TypeName} (h : sliceType a = .ok n) : n = .slice a := by
  unfold sliceType at h
  split at h <;> cases h
  rfl

theorem arrayType_ok {a n : TypeName} {k : Int} (h : arrayType a k = .ok n) : n = .array a k := by
  unfold arrayType at h
  split at h <;> cases h
  rfl

theorem channelType_ok {a n : TypeName} {d : ChanDir} (h : channelType a d = .ok n) : ∃ d', n = .chan a d' := by
  unfold channelType at h
  dsimp only at h
  generalize (if d = 0 then bothDir else d) = d' at h
  split at h <;> cases h
  exact ⟨_, rfl⟩

theorem funcTypeFromSig_ok {s : Signature} {n : TypeName} (h : funcTypeFromSig s = .ok n) : n = .func s := by
  unfold funcTypeFromSig at h
  split at h
  · cases h
  split at h
  · cases h
  split at h
  · split at h
    · cases h
    · split at h <;> cases h
      rfl
  · cases h
    rfl

mutual
theorem handled_type : ∀ (t : RT) (n : TypeName), t.wf = true → typeNameForReflectType t = .ok n → n.valid = true →
    n.meaning Symbol.ident = t.denotes → t.handled = true
  | .defined _ _ _, _, _, _, _, _ => rfl
  | .ptr e, n, hw, h, hv, hm => by
    obtain ⟨a, h1, h⟩ := bind_eq_ok h
    cases pointerType_ok h
    simp only [TypeName.meaning, RT.denotes, GoType.ptr.injEq] at hm
    exact handled_type e a hw h1 hv hm
  | .slice e, n, hw, h, hv, hm => by
    obtain ⟨a, h1, h⟩ := bind_eq_ok h
    cases sliceType_ok h
    simp only [TypeName.meaning, RT.denotes, GoType.slice.injEq] at hm
    exact handled_type e a hw h1 hv hm
  | .array e k, n, hw, h, hv, hm => by
    obtain ⟨a, h1, h⟩ := bind_eq_ok h
    cases arrayType_ok h
    simp only [TypeName.meaning, RT.denotes, GoType.array.injEq] at hm
    simp only [TypeName.valid, Bool.and_eq_true] at hv
    exact handled_type e a hw h1 hv.1 hm.2
  | .chan d e, n, hw, h, hv, hm => by
    obtain ⟨a, h1, h⟩ := bind_eq_ok h
    obtain ⟨d', rfl⟩ := channelType_ok h
    simp only [TypeName.meaning, RT.denotes, GoType.chan.injEq] at hm
    simp only [TypeName.valid, Bool.and_eq_true] at hv
    simp only [RT.wf, Bool.and_eq_true] at hw
    exact handled_type e a hw.1 h1 hv.1 hm.2
  | .map _ _, _, _, h, _, _ => by cases h
  | .func s, n, hw, h, hv, hm => by
    obtain ⟨a, h1, h⟩ := bind_eq_ok h
    cases funcTypeFromSig_ok h
    simp only [TypeName.meaning, RT.denotes, GoType.func.injEq] at hm
    exact handled_sig s a hw h1 hv hm
  | .struct fs, n, hw, h, hv, hm => by
    obtain ⟨a, h1, h⟩ := bind_eq_ok h
    cases h
    simp only [structType, TypeName.meaning, RT.denotes, GoType.struct.injEq] at hm
    exact handled_fields fs a hw h1 hv hm
  | .interface ms, n, hw, h, hv, hm => by
    obtain ⟨a, h1, h⟩ := bind_eq_ok h
    cases h
    simp only [interfaceType, TypeName.meaning, RT.denotes, GoType.iface.injEq, List.map_nil, List.nil_append] at hm
    exact handled_methods ms a hw h1 hv hm
theorem handled_sig : ∀ (s : RTSig) (n : Signature), s.wf = true → signatureFromReflectType s = .ok n → n.valid = true →
    n.meaning Symbol.ident = s.denotes → s.handled = true
  | .mk ins outs v, n, hw, h, hv, hm => by
    obtain ⟨as, h1, h⟩ := bind_eq_ok h
    obtain ⟨bs, h2, h⟩ := bind_eq_ok h
    cases h
    simp only [RTSig.wf, Bool.and_eq_true, Bool.or_eq_true, Bool.not_eq_true'] at hw
    simp only [Signature.valid, Bool.and_eq_true] at hv
    cases outs with
    | cons o os => simp [validArgs, List.replicate_succ, TypeName.valid] at hv
    | nil =>
      cases h2
      obtain ⟨hn, -⟩ := rconv_names ins h1
      simp only [Signature.meaning, RTSig.denotes, hasNames_false hn, GoSig.mk.injEq] at hm
      simp only [RTSig.handled, Bool.and_eq_true, List.isEmpty_nil, and_true]
      refine handled_vars ins as v hw.1.1 h1 hv.1.1 (fun e => .inr ?_) hm.1
      rcases hw.2 with h' | h'
      · rw [h'] at e
        cases e
      · exact h'
theorem handled_vars : ∀ (l : List RT) (as : List ArgType) (v : Bool), wfRVars l = true → argsForReflectType l = .ok as →
    validArgs as = true → (v = true → l = [] ∨ lastRIsSlice l = true) →
    meaningArgs Symbol.ident v false as = denoteRVars v l → handledVars l = true
  | [], _, _, _, _, _, _, _ => rfl
  | t :: l, as, v, hw, h, hv, hs, hm => by
    obtain ⟨a, h1, h⟩ := bind_eq_ok h
    obtain ⟨r, h2, h⟩ := bind_eq_ok h
    cases h
    simp only [wfRVars, Bool.and_eq_true] at hw
    simp only [validArgs, Bool.and_eq_true] at hv
    obtain ⟨-, he⟩ := rconv_names l h2
    simp only [meaningArgs, denoteRVars, he, List.cons.injEq, GoParam.mk.injEq] at hm
    simp only [handledVars, Bool.and_eq_true]
    refine ⟨?_, handled_vars l r v hw.2 h2 hv.2 (fun e => ?_) hm.2⟩
    · by_cases hc : (v && l.isEmpty) = true
      · have hc' := hc
        simp only [Bool.and_eq_true, List.isEmpty_iff] at hc'
        obtain ⟨hv', rfl⟩ := hc'
        cases t with
        | slice e =>
          obtain ⟨b, h3, h1⟩ := bind_eq_ok h1
          cases sliceType_ok h1
          have hm1 := hm.1.2
          rw [if_pos hc, if_pos hc, meaningElem, denoteRElem] at hm1
          exact handled_type e b hw.1 h3 hv.1 hm1
        | _ =>
          rcases hs hv' with h | h
          · cases h
          · simp [lastRIsSlice] at h
      · have hm1 := hm.1.2
        rw [if_neg hc, if_neg hc] at hm1
        exact handled_type t a hw.1 h1 hv.1 hm1
    · rcases hs e with h | h
      · cases h
      · cases l with
        | nil => exact .inl rfl
        | cons x l => right; simpa [lastRIsSlice] using h
theorem handled_fields : ∀ (l : List RTField) (fs : List FieldType), wfRFields l = true → fieldsForReflectType l = .ok fs →
    validFields fs = true → meaningFields Symbol.ident fs = denoteRFields l → handledFields l = true
  | [], _, _, _, _, _ => rfl
  | .mk n an t tag :: l, fs, hw, h, hv, hm => by
    obtain ⟨a, h1, h⟩ := bind_eq_ok h
    obtain ⟨r, h2, h⟩ := bind_eq_ok h
    cases h
    simp only [wfRFields, Bool.and_eq_true, bne_iff_ne, ne_eq] at hw
    simp only [validFields, Bool.and_eq_true] at hv
    simp only [meaningFields, denoteRFields, List.cons.injEq, GoField.mk.injEq, optName, if_neg hw.1.1] at hm
    simp only [handledFields, Bool.and_eq_true, Bool.not_eq_true']
    refine ⟨⟨?_, handled_type t a hw.1.2 h1 hv.1 hm.1.2.1⟩, handled_fields l r hw.2 h2 hv.2 hm.2⟩
    cases an with
    | false => rfl
    | true => simp at hm
theorem handled_methods : ∀ (l : List RTMethod) (ms : List MethodType), wfRMethods l = true →
    methodsForReflectType l = .ok ms → validMethods ms = true →
    meaningMethods Symbol.ident ms = denoteRMethods l → handledMethods l = true
  | [], _, _, _, _, _ => rfl
  | .mk n s :: l, ms, hw, h, hv, hm => by
    obtain ⟨a, h1, h⟩ := bind_eq_ok h
    obtain ⟨r, h2, h⟩ := bind_eq_ok h
    cases h
    simp only [wfRMethods, Bool.and_eq_true] at hw
    simp only [validMethods, Bool.and_eq_true] at hv
    simp only [meaningMethods, denoteRMethods, List.cons.injEq, GoElem.method.injEq] at hm
    simp only [handledMethods, Bool.and_eq_true]
    exact ⟨handled_sig s a hw.1 h1 hv.1 hm.1.2, handled_methods l r hw.2 h2 hv.2 hm.2⟩
end

end Gopoet
