import Verif.Spec.TypeMeaning
/-! Types without regard to the names of types in them. -/

namespace Gopoet

mutual
/-- The type with all names of types replaced by one. -/
def GoType.shape {N : Type} : GoType N → GoType Unit
  | .name _ => .name ()
  | .ptr e => .ptr e.shape
  | .slice e => .slice e.shape
  | .array n e => .array n e.shape
  | .map k e => .map k.shape e.shape
  | .chan d e => .chan d e.shape
  | .func s => .func s.shape
  | .struct fs => .struct (shapeFields fs)
  | .iface es => .iface (shapeElems es)
/-- see `GoType.shape` -/
def GoSig.shape {N : Type} : GoSig N → GoSig Unit
  | .mk ps v rs => .mk (shapeParams ps) v (shapeParams rs)
/-- see `GoType.shape` -/
def shapeParams {N : Type} : List (GoParam N) → List (GoParam Unit)
  | [] => []
  | .mk n t :: l => .mk n t.shape :: shapeParams l
/-- see `GoType.shape` -/
def shapeFields {N : Type} : List (GoField N) → List (GoField Unit)
  | [] => []
  | .mk n t tag :: l => .mk n t.shape tag :: shapeFields l
/-- see `GoType.shape` -/
def shapeElems {N : Type} : List (GoElem N) → List (GoElem Unit)
  | [] => []
  | .embed _ :: l => .embed () :: shapeElems l
  | .method n s :: l => .method n s.shape :: shapeElems l
end

section
variable {N M : Type} {f : N → Option M}

mutual
theorem shape_of_resolve : ∀ {u : GoType N} {v : GoType M}, u.resolve f = some v → u.shape = v.shape
  | .name n, v, h => by
    simp only [GoType.resolve, Option.map_eq_some_iff] at h
    obtain ⟨_, _, rfl⟩ := h; rfl
  | .ptr e, v, h => by
    simp only [GoType.resolve, Option.map_eq_some_iff] at h
    obtain ⟨x, hx, rfl⟩ := h; rw [GoType.shape, GoType.shape, shape_of_resolve hx]
  | .slice e, v, h => by
    simp only [GoType.resolve, Option.map_eq_some_iff] at h
    obtain ⟨x, hx, rfl⟩ := h; rw [GoType.shape, GoType.shape, shape_of_resolve hx]
  | .array n e, v, h => by
    simp only [GoType.resolve, Option.map_eq_some_iff] at h
    obtain ⟨x, hx, rfl⟩ := h; rw [GoType.shape, GoType.shape, shape_of_resolve hx]
  | .map k e, v, h => by
    simp only [GoType.resolve, Option.bind_eq_some_iff, Option.map_eq_some_iff] at h
    obtain ⟨y, hy, x, hx, rfl⟩ := h; rw [GoType.shape, GoType.shape, shape_of_resolve hx, shape_of_resolve hy]
  | .chan n e, v, h => by
    simp only [GoType.resolve, Option.map_eq_some_iff] at h
    obtain ⟨x, hx, rfl⟩ := h; rw [GoType.shape, GoType.shape, shape_of_resolve hx]
  | .func e, v, h => by
    simp only [GoType.resolve, Option.map_eq_some_iff] at h
    obtain ⟨x, hx, rfl⟩ := h; rw [GoType.shape, GoType.shape, shape_of_resolveSig hx]
  | .struct e, v, h => by
    simp only [GoType.resolve, Option.map_eq_some_iff] at h
    obtain ⟨x, hx, rfl⟩ := h; rw [GoType.shape, GoType.shape, shape_of_resolveFields hx]
  | .iface e, v, h => by
    simp only [GoType.resolve, Option.map_eq_some_iff] at h
    obtain ⟨x, hx, rfl⟩ := h; rw [GoType.shape, GoType.shape, shape_of_resolveElems hx]
theorem shape_of_resolveSig : ∀ {u : GoSig N} {v : GoSig M}, u.resolve f = some v → u.shape = v.shape
  | .mk _ _ _, v, h => by
    simp only [GoSig.resolve, Option.bind_eq_some_iff, Option.map_eq_some_iff] at h
    obtain ⟨y, hy, x, hx, rfl⟩ := h
    rw [GoSig.shape, GoSig.shape, shape_of_resolveParams hx, shape_of_resolveParams hy]
theorem shape_of_resolveParams : ∀ {u : List (GoParam N)} {v : List (GoParam M)}, resolveParams f u = some v →
    shapeParams u = shapeParams v
  | [], v, h => by
    simp only [resolveParams, Option.some.injEq] at h; subst h; rfl
  | .mk n t :: l, v, h => by
    simp only [resolveParams, Option.bind_eq_some_iff, Option.map_eq_some_iff] at h
    obtain ⟨y, hy, x, hx, rfl⟩ := h
    rw [shapeParams, shapeParams, shape_of_resolveParams hx, shape_of_resolve hy]
theorem shape_of_resolveFields : ∀ {u : List (GoField N)} {v : List (GoField M)}, resolveFields f u = some v →
    shapeFields u = shapeFields v
  | [], v, h => by
    simp only [resolveFields, Option.some.injEq] at h; subst h; rfl
  | .mk n t g :: l, v, h => by
    simp only [resolveFields, Option.bind_eq_some_iff, Option.map_eq_some_iff] at h
    obtain ⟨y, hy, x, hx, rfl⟩ := h
    rw [shapeFields, shapeFields, shape_of_resolveFields hx, shape_of_resolve hy]
theorem shape_of_resolveElems : ∀ {u : List (GoElem N)} {v : List (GoElem M)}, resolveElems f u = some v →
    shapeElems u = shapeElems v
  | [], v, h => by
    simp only [resolveElems, Option.some.injEq] at h; subst h; rfl
  | .embed n :: l, v, h => by
    simp only [resolveElems, Option.bind_eq_some_iff, Option.map_eq_some_iff] at h
    obtain ⟨y, hy, x, hx, rfl⟩ := h
    rw [shapeElems, shapeElems, shape_of_resolveElems hx]
  | .method n s :: l, v, h => by
    simp only [resolveElems, Option.bind_eq_some_iff, Option.map_eq_some_iff] at h
    obtain ⟨y, hy, x, hx, rfl⟩ := h
    rw [shapeElems, shapeElems, shape_of_resolveElems hx, shape_of_resolveSig hy]
end
end

theorem shapeElems_append {N : Type} : ∀ a b : List (GoElem N), shapeElems (a ++ b) = shapeElems a ++ shapeElems b
  | [], _ => rfl
  | .embed _ :: a, b => by rw [List.cons_append, shapeElems, shapeElems, shapeElems_append a b]; rfl
  | .method _ _ :: a, b => by rw [List.cons_append, shapeElems, shapeElems, shapeElems_append a b]; rfl

theorem shapeElems_embeds {N α : Type} (k : α → N) : ∀ l : List α,
    shapeElems (l.map fun s => .embed (k s)) = l.map fun _ => .embed ()
  | [] => rfl
  | _ :: l => by rw [List.map_cons, List.map_cons, shapeElems, shapeElems_embeds k l]

theorem hasNames_mapSymbols (g : Symbol → Symbol) : ∀ l : List ArgType, hasNames (mapSymbolsArgs g l) = hasNames l
  | [] => rfl
  | ⟨n, t⟩ :: l => by
    have := hasNames_mapSymbols g l
    simp only [hasNames, mapSymbolsArgs, List.any_cons] at this ⊢
    rw [this]

section
variable {g : Symbol → Symbol} {m : Symbol → TypeIdent}

mutual
theorem shape_meaning : ∀ {t : TypeName}, (t.mapSymbols g).syntax.shape = (t.meaning m).shape
  | .nil => rfl
  | .basic _ => rfl
  | .named _ => rfl
  | .ptr e => by
    have := shape_meaning (t := e)
    simp [TypeName.mapSymbols, TypeName.syntax, TypeName.meaning, GoType.shape, this]
  | .slice e => by
    have := shape_meaning (t := e)
    simp [TypeName.mapSymbols, TypeName.syntax, TypeName.meaning, GoType.shape, this]
  | .array e n => by
    have := shape_meaning (t := e)
    simp [TypeName.mapSymbols, TypeName.syntax, TypeName.meaning, GoType.shape, this]
  | .map e k => by
    have h1 := shape_meaning (t := e)
    have h2 := shape_meaning (t := k)
    simp [TypeName.mapSymbols, TypeName.syntax, TypeName.meaning, GoType.shape, h1, h2]
  | .chan e d => by
    have := shape_meaning (t := e)
    simp [TypeName.mapSymbols, TypeName.syntax, TypeName.meaning, GoType.shape, this]
  | .func s => by
    have := shape_meaningSig (s := s)
    simp [TypeName.mapSymbols, TypeName.syntax, TypeName.meaning, GoType.shape, this]
  | .struct fs => by
    have := shape_meaningFields (l := fs)
    simp [TypeName.mapSymbols, TypeName.syntax, TypeName.meaning, GoType.shape, this]
  | .interface ms es => by
    have := shape_meaningMethods (l := ms)
    rw [TypeName.mapSymbols, TypeName.syntax, TypeName.meaning, GoType.shape, GoType.shape, shapeElems_append,
      shapeElems_append, this, shapeElems_embeds, shapeElems_embeds, List.map_map]; rfl
theorem shape_meaningSig : ∀ {s : Signature}, (s.mapSymbols g).syntax.shape = (s.meaning m).shape
  | ⟨args, results, v⟩ => by
    have h1 := shape_meaningArgs (l := args) (v := v) (named := hasNames args)
    have h2 := shape_meaningArgs (l := results) (v := false) (named := hasNames results)
    simp [Signature.mapSymbols, Signature.syntax, GoSig.shape, Signature.meaning, hasNames_mapSymbols, h1, h2]
theorem shape_meaningArgs : ∀ {l : List ArgType} {v named : Bool},
    shapeParams (syntaxArgs v named (mapSymbolsArgs g l)) = shapeParams (meaningArgs m v named l)
  | [], _, _ => rfl
  | ⟨n, t⟩ :: l, v, named => by
    have ih := shape_meaningArgs (l := l) (v := v) (named := named)
    have h1 := shape_meaning (t := t)
    have h2 := shape_meaningElem (t := t)
    have h3 : (mapSymbolsArgs g l).isEmpty = l.isEmpty := by
      cases l with
      | nil => rfl
      | cons a l => obtain ⟨n, t⟩ := a; rfl
    rw [mapSymbolsArgs, syntaxArgs, meaningArgs, shapeParams, shapeParams, ih, h3]
    split
    · rw [h2]
    · rw [h1]
theorem shape_meaningElem : ∀ {t : TypeName},
    (syntaxElem (t.mapSymbols g)).shape = (meaningElem m t).shape
  | .slice e => by
    have := shape_meaning (t := e)
    simp [TypeName.mapSymbols, syntaxElem, meaningElem, this]
  | .nil | .basic _ | .named _ | .ptr _ | .array _ _ | .map _ _ | .chan _ _ | .func _ | .struct _ | .interface _ _ => by
    simp [TypeName.mapSymbols, syntaxElem, meaningElem, GoType.shape]
theorem shape_meaningFields : ∀ {l : List FieldType},
    shapeFields (syntaxFields (mapSymbolsFields g l)) = shapeFields (meaningFields m l)
  | [] => rfl
  | ⟨n, t, tag⟩ :: l => by
    have ih := shape_meaningFields (l := l)
    have h1 := shape_meaning (t := t)
    simp [mapSymbolsFields, syntaxFields, shapeFields, meaningFields, ih, h1]
theorem shape_meaningMethods : ∀ {l : List MethodType},
    shapeElems (syntaxMethods (mapSymbolsMethods g l)) = shapeElems (meaningMethods m l)
  | [] => rfl
  | ⟨n, s⟩ :: l => by
    have ih := shape_meaningMethods (l := l)
    have h1 := shape_meaningSig (s := s)
    simp [mapSymbolsMethods, syntaxMethods, shapeElems, meaningMethods, ih, h1]
end
end

end Gopoet
