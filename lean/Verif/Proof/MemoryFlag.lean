import Verif.Proof.SettledLemmas
/-!
# The value is new exactly if it is different
-/

namespace Gopoet
namespace Imports

theorem qualifySymbols_flag (r : Bool) : ∀ (l : List Symbol) {x : List Symbol × Bool} {i j : Imports},
    qualifySymbols r l i = (.ok x, j) → (x.2 = false ↔ x.1 = l)
  | [], x, i, j, h => by
    rw [qualifySymbols] at h
    obtain ⟨rfl, -⟩ := pure_eq_ok h
    simp
  | s :: l, x, i, j, h => by
    rw [qualifySymbols] at h
    obtain ⟨nt, j', h1, h⟩ := IM.bind_eq_ok h
    obtain ⟨⟨rest, c⟩, k', h2, h⟩ := IM.bind_eq_ok h
    obtain ⟨rfl, -⟩ := pure_eq_ok h
    have := qualifySymbols_flag r l h2
    dsimp only at this
    simp [this]

mutual
theorem qualifyType_flag (r : Bool) : ∀ (t : TypeName) {x : TypeName × Bool} {i j : Imports},
    qualifyType r t i = (.ok x, j) → (x.2 = false ↔ x.1 = t)
  | .nil, x, i, j, h => by
    rw [qualifyType] at h
    cases h
  | .basic k, x, i, j, h => by
    rw [qualifyType] at h
    obtain ⟨rfl, -⟩ := pure_eq_ok h
    simp
  | .named s, x, i, j, h => by
    rw [qualifyType] at h
    obtain ⟨ns, j', h1, h⟩ := IM.bind_eq_ok h
    by_cases hn : ns = s
    · rw [if_neg (by simp [hn])] at h
      obtain ⟨rfl, -⟩ := pure_eq_ok h
      simp
    · rw [if_pos hn] at h
      obtain ⟨rfl, -⟩ := pure_eq_ok h
      simp [namedType, hn]
  | .ptr t, x, i, j, h => by
    rw [qualifyType] at h
    obtain ⟨⟨t', c⟩, j', h1, h⟩ := IM.bind_eq_ok h
    have ih := qualifyType_flag r t h1
    cases c with
    | false =>
      obtain ⟨rfl, -⟩ := pure_eq_ok h
      simp
    | true =>
      obtain ⟨n, j'', h2, h⟩ := IM.bind_eq_ok h
      obtain ⟨rfl, -⟩ := pure_eq_ok h
      have h2 := (lift_eq_ok h2).1
      rw [pointerType] at h2
      split at h2
      · cases h2
      · cases h2
        simpa using ih
  | .slice t, x, i, j, h => by
    rw [qualifyType] at h
    obtain ⟨⟨t', c⟩, j', h1, h⟩ := IM.bind_eq_ok h
    have ih := qualifyType_flag r t h1
    cases c with
    | false =>
      obtain ⟨rfl, -⟩ := pure_eq_ok h
      simp
    | true =>
      obtain ⟨n, j'', h2, h⟩ := IM.bind_eq_ok h
      obtain ⟨rfl, -⟩ := pure_eq_ok h
      have h2 := (lift_eq_ok h2).1
      rw [sliceType] at h2
      split at h2
      · cases h2
      · cases h2
        simpa using ih
  | .array t len, x, i, j, h => by
    rw [qualifyType] at h
    obtain ⟨⟨t', c⟩, j', h1, h⟩ := IM.bind_eq_ok h
    have ih := qualifyType_flag r t h1
    cases c with
    | false =>
      obtain ⟨rfl, -⟩ := pure_eq_ok h
      simp
    | true =>
      obtain ⟨n, j'', h2, h⟩ := IM.bind_eq_ok h
      obtain ⟨rfl, -⟩ := pure_eq_ok h
      have h2 := (lift_eq_ok h2).1
      rw [arrayType] at h2
      split at h2
      · cases h2
      · cases h2
        simpa using ih
  | .map t k, x, i, j, h => by
    rw [qualifyType] at h
    obtain ⟨⟨k', ck⟩, j', h1, h⟩ := IM.bind_eq_ok h
    obtain ⟨⟨t', c⟩, j'', h2, h⟩ := IM.bind_eq_ok h
    have ih := qualifyType_flag r k h1
    have ih' := qualifyType_flag r t h2
    dsimp only at ih ih'
    by_cases hc : (c || ck) = true
    · dsimp only at h
      rw [if_pos hc] at h
      obtain ⟨n, j'', h2, h⟩ := IM.bind_eq_ok h
      obtain ⟨rfl, -⟩ := pure_eq_ok h
      have h2 := (lift_eq_ok h2).1
      rw [mapType] at h2
      split at h2
      · cases h2
      · cases h2
        simp only [Bool.true_eq_false, TypeName.map.injEq, false_iff]
        rintro ⟨h3, h4⟩
        rw [ih.2 h4, ih'.2 h3] at hc
        cases hc
    · dsimp only at h
      rw [if_neg hc] at h
      obtain ⟨rfl, -⟩ := pure_eq_ok h
      simp
  | .chan t d, x, i, j, h => by
    rw [qualifyType] at h
    obtain ⟨⟨t', c⟩, j', h1, h⟩ := IM.bind_eq_ok h
    have ih := qualifyType_flag r t h1
    cases c with
    | false =>
      obtain ⟨rfl, -⟩ := pure_eq_ok h
      simp
    | true =>
      obtain ⟨n, j'', h2, h⟩ := IM.bind_eq_ok h
      obtain ⟨rfl, -⟩ := pure_eq_ok h
      have h2 := (lift_eq_ok h2).1
      rw [channelType] at h2
      dsimp only at h2 ih
      have ih : t' ≠ t := by simpa using ih
      generalize (if d = 0 then bothDir else d) = d' at h2
      by_cases hb : (t'.isNil || decide (d' &&& ~~~bothDir ≠ 0)) = true
      · rw [if_pos hb] at h2
        cases h2
      · rw [if_neg hb] at h2
        cases h2
        simp [ih]
  | .func sig, x, i, j, h => by
    rw [qualifyType] at h
    obtain ⟨⟨t', c⟩, j', h1, h⟩ := IM.bind_eq_ok h
    have ih := qualifySignature_flag r sig h1
    cases c with
    | false =>
      obtain ⟨rfl, -⟩ := pure_eq_ok h
      simp
    | true =>
      obtain ⟨n, j'', h2, h⟩ := IM.bind_eq_ok h
      obtain ⟨rfl, -⟩ := pure_eq_ok h
      have h2 := (lift_eq_ok h2).1
      have hn : n = .func t' := by
        rw [funcTypeFromSig] at h2
        split at h2
        · cases h2
        split at h2
        · cases h2
        split at h2
        · split at h2
          · cases h2
          · split at h2
            · cases h2
              rfl
            · cases h2
        · cases h2
          rfl
      subst hn
      simpa using ih
  | .struct fs, x, i, j, h => by
    rw [qualifyType] at h
    obtain ⟨⟨t', c⟩, j', h1, h⟩ := IM.bind_eq_ok h
    have ih := qualifyFields_flag r fs h1
    cases c with
    | false =>
      obtain ⟨rfl, -⟩ := pure_eq_ok h
      simp
    | true =>
      obtain ⟨rfl, -⟩ := pure_eq_ok h
      simpa [structType] using ih
  | .interface ms es, x, i, j, h => by
    rw [qualifyType] at h
    obtain ⟨⟨es', ce⟩, j', h1, h⟩ := IM.bind_eq_ok h
    obtain ⟨⟨ms', cm⟩, j'', h2, h⟩ := IM.bind_eq_ok h
    have ih := qualifySymbols_flag r es h1
    have ih' := qualifyMethods_flag r ms h2
    dsimp only at ih ih'
    by_cases hc : (ce || cm) = true
    · dsimp only at h
      rw [if_pos hc] at h
      obtain ⟨rfl, -⟩ := pure_eq_ok h
      simp only [Bool.true_eq_false, interfaceType, TypeName.interface.injEq, false_iff]
      rintro ⟨h3, h4⟩
      rw [ih.2 h4, ih'.2 h3] at hc
      cases hc
    · dsimp only at h
      rw [if_neg hc] at h
      obtain ⟨rfl, -⟩ := pure_eq_ok h
      simp
theorem qualifySignature_flag (r : Bool) : ∀ (t : Signature) {x : Signature × Bool} {i j : Imports},
    qualifySignature r t i = (.ok x, j) → (x.2 = false ↔ x.1 = t)
  | ⟨args, results, v⟩, x, i, j, h => by
    rw [qualifySignature] at h
    obtain ⟨⟨as', ca⟩, j', h1, h⟩ := IM.bind_eq_ok h
    obtain ⟨⟨rs', cr⟩, j'', h2, h⟩ := IM.bind_eq_ok h
    have ih := qualifyArgs_flag r args h1
    have ih' := qualifyArgs_flag r results h2
    dsimp only at ih ih'
    by_cases hc : (ca || cr) = true
    · dsimp only at h
      rw [if_pos hc] at h
      obtain ⟨rfl, -⟩ := pure_eq_ok h
      simp only [Bool.true_eq_false, Signature.mk.injEq, false_iff]
      rintro ⟨h3, h4, -⟩
      rw [ih.2 h3, ih'.2 h4] at hc
      cases hc
    · dsimp only at h
      rw [if_neg hc] at h
      obtain ⟨rfl, -⟩ := pure_eq_ok h
      simp
theorem qualifyArgs_flag (r : Bool) : ∀ (t : List ArgType) {x : List ArgType × Bool} {i j : Imports},
    qualifyArgs r t i = (.ok x, j) → (x.2 = false ↔ x.1 = t)
  | [], x, i, j, h => by
    rw [qualifyArgs] at h
    obtain ⟨rfl, -⟩ := pure_eq_ok h
    simp
  | ⟨n, t⟩ :: l, x, i, j, h => by
    rw [qualifyArgs] at h
    obtain ⟨⟨t', c⟩, j', h1, h⟩ := IM.bind_eq_ok h
    obtain ⟨⟨rest, cs⟩, k', h2, h⟩ := IM.bind_eq_ok h
    obtain ⟨rfl, -⟩ := pure_eq_ok h
    have ih := qualifyType_flag r t h1
    have ih' := qualifyArgs_flag r l h2
    dsimp only at ih ih'
    simp [ih, ih']
theorem qualifyFields_flag (r : Bool) : ∀ (t : List FieldType) {x : List FieldType × Bool} {i j : Imports},
    qualifyFields r t i = (.ok x, j) → (x.2 = false ↔ x.1 = t)
  | [], x, i, j, h => by
    rw [qualifyFields] at h
    obtain ⟨rfl, -⟩ := pure_eq_ok h
    simp
  | ⟨n, t, tag⟩ :: l, x, i, j, h => by
    rw [qualifyFields] at h
    obtain ⟨⟨t', c⟩, j', h1, h⟩ := IM.bind_eq_ok h
    obtain ⟨⟨rest, cs⟩, k', h2, h⟩ := IM.bind_eq_ok h
    obtain ⟨rfl, -⟩ := pure_eq_ok h
    have ih := qualifyType_flag r t h1
    have ih' := qualifyFields_flag r l h2
    dsimp only at ih ih'
    simp [ih, ih']
theorem qualifyMethods_flag (r : Bool) : ∀ (t : List MethodType) {x : List MethodType × Bool} {i j : Imports},
    qualifyMethods r t i = (.ok x, j) → (x.2 = false ↔ x.1 = t)
  | [], x, i, j, h => by
    rw [qualifyMethods] at h
    obtain ⟨rfl, -⟩ := pure_eq_ok h
    simp
  | ⟨n, t⟩ :: l, x, i, j, h => by
    rw [qualifyMethods] at h
    obtain ⟨⟨t', c⟩, j', h1, h⟩ := IM.bind_eq_ok h
    obtain ⟨⟨rest, cs⟩, k', h2, h⟩ := IM.bind_eq_ok h
    obtain ⟨rfl, -⟩ := pure_eq_ok h
    have ih := qualifySignature_flag r t h1
    have ih' := qualifyMethods_flag r l h2
    dsimp only at ih ih'
    simp [ih, ih']
end

end Imports
end Gopoet
