import Verif.Spec.FileMeaning
import Verif.Proof.AliasLemmas
import Verif.Proof.MeaningLemmas
import Verif.Proof.NamedLemmas
import Verif.Props.Whole
import Verif.Props.Imports
import Verif.Props.Code
import Verif.Props.Render
/-! The declarations in the text of a file mean what the elements of the file were meant to declare. -/

namespace Gopoet
open Imports

/-! ### What qualification does to types -/

/-- Names and import paths are kept, and symbols without package are. -/
def KeepsSymbols (g : Symbol → Symbol) : Prop := ∀ s, (g s).name = s.name ∧
  (g s).package.importPath = s.package.importPath ∧ (s.package = ⟨[], []⟩ → g s = s)

theorem KeepsSymbols.id : KeepsSymbols fun s => s := fun _ => ⟨rfl, rfl, fun _ => rfl⟩

theorem KeepsSymbols.comp {f g : Symbol → Symbol} (hf : KeepsSymbols f) (hg : KeepsSymbols g) : KeepsSymbols fun s => g (f s) :=
  fun s => ⟨(hg _).1.trans (hf s).1, (hg _).2.1.trans (hf s).2.1, fun h => by
    have := (hf s).2.2 h
    show g (f s) = s
    rw [this]; exact (hg s).2.2 h⟩

theorem keeps_symIn (i : Imports) : KeepsSymbols i.symIn := by
  intro s
  rw [Imports.symIn, Symbol.withPrefix]
  split
  · exact ⟨rfl, rfl, fun _ => rfl⟩
  · rename_i hne
    split
    · refine ⟨rfl, rfl, fun h => absurd ?_ hne⟩
      rw [h]; exact ⟨rfl, rfl⟩
    · refine ⟨rfl, rfl, fun h => absurd ?_ hne⟩
      rw [h]; exact ⟨rfl, rfl⟩

theorem TypeName.mapSymbols_id' (t : TypeName) : t.mapSymbols (fun s => s) = t :=
  mapSymbols_eq_self t (fun _ _ => rfl)

theorem Signature.mapSymbols_id' (t : Signature) : t.mapSymbols (fun s => s) = t :=
  mapSymbols_eq_self_sig t (fun _ _ => rfl)

section
variable {h h' : Heap} {i i' : Imports}

theorem Later.type_map (a : Later h i h' i') {p ts} (ht : h.types p = some ts)
    (hv : ts.underlying.valid = true) :
    ∃ g, KeepsSymbols g ∧ h'.types p = some { ts with underlying := ts.underlying.mapSymbols g } := by
  refine a.induct (P := fun h' _ => ∃ g, KeepsSymbols g ∧
    h'.types p = some { ts with underlying := ts.underlying.mapSymbols g }) ?_
    (fun _ _ _ _ hp => hp) ⟨_, .id, by rw [TypeName.mapSymbols_id']; exact ht⟩
  rintro h i h' i' s ⟨g, hg, hp⟩
  cases s with
  | @type q ts' u _ hq hu =>
    by_cases hqp : p = q
    · subst hqp
      rw [hp] at hq
      obtain rfl := Option.some.inj hq
      obtain ⟨j, hj, -, -⟩ := ensureTypeImported_eq (i := i) (t := ts.underlying.mapSymbols g)
        (by rw [valid_mapSymbols]; exact hv)
      rw [hu] at hj
      obtain ⟨rfl, rfl⟩ : u = (ts.underlying.mapSymbols g).mapSymbols j.symIn ∧ i' = j := by simpa using hj
      refine ⟨_, hg.comp (keeps_symIn i'), ?_⟩
      simp only [upd_same, mapSymbols_comp]
    · exact ⟨g, hg, (upd_ne _ _ hqp).trans hp⟩
  | _ => exact ⟨g, hg, hp⟩

theorem Later.field_map (a : Later h i h' i') {p f t} (ht : h.fields p = some f) (hf : f.type = .name t)
    (hv : t.valid = true) :
    ∃ g, KeepsSymbols g ∧ h'.fields p = some { f with type := .name (t.mapSymbols g) } := by
  refine a.induct (P := fun h' _ => ∃ g, KeepsSymbols g ∧
    h'.fields p = some { f with type := .name (t.mapSymbols g) }) ?_
    (fun _ _ _ _ hp => hp) ⟨_, .id, by rw [TypeName.mapSymbols_id', ← hf]; exact ht⟩
  rintro h i h' i' s ⟨g, hg, hp⟩
  cases s with
  | @field q f' t' u _ hq hft hu =>
    by_cases hqp : p = q
    · subst hqp
      rw [hp] at hq
      obtain rfl := Option.some.inj hq
      cases hft
      obtain ⟨j, hj, -, -⟩ := ensureTypeImported_eq (i := i) (t := t.mapSymbols g)
        (by rw [valid_mapSymbols]; exact hv)
      rw [hu] at hj
      obtain ⟨rfl, rfl⟩ : u = (t.mapSymbols g).mapSymbols j.symIn ∧ i' = j := by simpa using hj
      refine ⟨_, hg.comp (keeps_symIn i'), ?_⟩
      simp only [upd_same, mapSymbols_comp]
    · exact ⟨g, hg, (upd_ne _ _ hqp).trans hp⟩
  | _ => exact ⟨g, hg, hp⟩

/-- Fields that have no type name are not changed. -/
theorem Later.field_same (a : Later h i h' i') {p f} (ht : h.fields p = some f)
    (hf : ∀ t, f.type ≠ .name t) : h'.fields p = some f := by
  refine a.induct (P := fun h' _ => h'.fields p = some f) ?_ (fun _ _ _ _ hp => hp) ht
  rintro h i h' i' s hp
  cases s with
  | @field q f' t' u _ hq hft hu =>
    by_cases hqp : p = q
    · subst hqp
      rw [hp] at hq
      obtain rfl := Option.some.inj hq
      exact absurd hft (hf _)
    · exact (upd_ne _ _ hqp).trans hp
  | _ => exact hp

theorem Later.value_map (a : Later h i h' i') {p f t} (ht : h.values p = some f) (hf : f.type = .name t)
    (hv : t.valid = true) :
    ∃ g, KeepsSymbols g ∧ h'.values p = some { f with type := .name (t.mapSymbols g) } := by
  refine a.induct (P := fun h' _ => ∃ g, KeepsSymbols g ∧
    h'.values p = some { f with type := .name (t.mapSymbols g) }) ?_
    (fun _ _ _ _ hp => hp) ⟨_, .id, by rw [TypeName.mapSymbols_id', ← hf]; exact ht⟩
  rintro h i h' i' s ⟨g, hg, hp⟩
  cases s with
  | @value q f' t' u _ hq hft hu =>
    by_cases hqp : p = q
    · subst hqp
      rw [hp] at hq
      obtain rfl := Option.some.inj hq
      cases hft
      obtain ⟨j, hj, -, -⟩ := ensureTypeImported_eq (i := i) (t := t.mapSymbols g)
        (by rw [valid_mapSymbols]; exact hv)
      rw [hu] at hj
      obtain ⟨rfl, rfl⟩ : u = (t.mapSymbols g).mapSymbols j.symIn ∧ i' = j := by simpa using hj
      refine ⟨_, hg.comp (keeps_symIn i'), ?_⟩
      simp only [upd_same, mapSymbols_comp]
    · exact ⟨g, hg, (upd_ne _ _ hqp).trans hp⟩
  | _ => exact ⟨g, hg, hp⟩

/-- Constants and variables that have no type name are not changed. -/
theorem Later.value_same (a : Later h i h' i') {p f} (ht : h.values p = some f)
    (hf : ∀ t, f.type ≠ .name t) : h'.values p = some f := by
  refine a.induct (P := fun h' _ => h'.values p = some f) ?_ (fun _ _ _ _ hp => hp) ht
  rintro h i h' i' s hp
  cases s with
  | @value q f' t' u _ hq hft hu =>
    by_cases hqp : p = q
    · subst hqp
      rw [hp] at hq
      obtain rfl := Option.some.inj hq
      exact absurd hft (hf _)
    · exact (upd_ne _ _ hqp).trans hp
  | _ => exact hp

theorem Later.embed_map (a : Later h i h' i') {p e} (ht : h.embeds p = some e) :
    ∃ g, KeepsSymbols g ∧ h'.embeds p = some { e with type := g e.type } := by
  refine a.induct (P := fun h' _ => ∃ g, KeepsSymbols g ∧ h'.embeds p = some { e with type := g e.type }) ?_
    (fun _ _ _ _ hp => hp) ⟨_, .id, ht⟩
  rintro h i h' i' s ⟨g, hg, hp⟩
  cases s with
  | @embed q e' u _ hq hu =>
    by_cases hqp : p = q
    · subst hqp
      rw [hp] at hq
      obtain rfl := Option.some.inj hq
      obtain ⟨j, hj, -, -⟩ := ensureImported_eq (g e.type) i
      rw [hu] at hj
      obtain ⟨rfl, rfl⟩ : u = j.symIn (g e.type) ∧ i' = j := by simpa using hj
      exact ⟨_, hg.comp (keeps_symIn i'), by simp only [upd_same]⟩
    · exact ⟨g, hg, (upd_ne _ _ hqp).trans hp⟩
  | _ => exact ⟨g, hg, hp⟩

theorem Later.method_map (a : Later h i h' i') {p m} (ht : h.methods p = some m)
    (hv : m.signature.valid = true) :
    ∃ g, KeepsSymbols g ∧ h'.methods p = some { m with signature := m.signature.mapSymbols g } := by
  refine a.induct (P := fun h' _ => ∃ g, KeepsSymbols g ∧
    h'.methods p = some { m with signature := m.signature.mapSymbols g }) ?_
    (fun _ _ _ _ hp => hp) ⟨_, .id, by rw [Signature.mapSymbols_id']; exact ht⟩
  rintro h i h' i' s ⟨g, hg, hp⟩
  cases s with
  | @method q m' u _ hq hu =>
    by_cases hqp : p = q
    · subst hqp
      rw [hp] at hq
      obtain rfl := Option.some.inj hq
      obtain ⟨j, hj, -, -⟩ := ensureAllTypesImported_eq (i := i) (t := m.signature.mapSymbols g)
        (by rw [valid_mapSymbols_sig]; exact hv)
      rw [hu] at hj
      obtain ⟨rfl, rfl⟩ : u = (m.signature.mapSymbols g).mapSymbols j.symIn ∧ i' = j := by simpa using hj
      refine ⟨_, hg.comp (keeps_symIn i'), ?_⟩
      simp only [upd_same, mapSymbols_comp_sig]
    · exact ⟨g, hg, (upd_ne _ _ hqp).trans hp⟩
  | _ => exact ⟨g, hg, hp⟩

theorem Later.func_map (a : Later h i h' i') {p m} (ht : h.funcs p = some m)
    (hv : m.signature.valid = true) :
    ∃ g, KeepsSymbols g ∧ h'.funcs p = some { m with signature := m.signature.mapSymbols g } := by
  refine a.induct (P := fun h' _ => ∃ g, KeepsSymbols g ∧
    h'.funcs p = some { m with signature := m.signature.mapSymbols g }) ?_
    (fun _ _ _ _ hp => hp) ⟨_, .id, by rw [Signature.mapSymbols_id']; exact ht⟩
  rintro h i h' i' s ⟨g, hg, hp⟩
  cases s with
  | @func q m' u _ hq hu =>
    by_cases hqp : p = q
    · subst hqp
      rw [hp] at hq
      obtain rfl := Option.some.inj hq
      obtain ⟨j, hj, -, -⟩ := ensureAllTypesImported_eq (i := i) (t := m.signature.mapSymbols g)
        (by rw [valid_mapSymbols_sig]; exact hv)
      rw [hu] at hj
      obtain ⟨rfl, rfl⟩ : u = (m.signature.mapSymbols g).mapSymbols j.symIn ∧ i' = j := by simpa using hj
      refine ⟨_, hg.comp (keeps_symIn i'), ?_⟩
      simp only [upd_same, mapSymbols_comp_sig]
    · exact ⟨g, hg, (upd_ne _ _ hqp).trans hp⟩
  | _ => exact ⟨g, hg, hp⟩

end

/-! ### Resolving the names in a qualified type -/

/-- Imports with identifiers as names, which are true unless they are given explicitly. -/
structure Readable (i : Imports) (realName : GoString → GoString) : Prop where
  inv : Inv i
  trueNames : TrueNames realName i
  identNames : IdentNames i

/-- No import takes a name of the package or of a predeclared type. -/
def Unshadowed (i : Imports) (decls : List GoString) (realName : GoString → GoString) : Prop :=
  ∀ s ∈ i.importSpecs, s.binds realName ∉ decls ∧ s.binds realName ∉ universeBlock.map (·.1)

section
variable {i : Imports} {decls : List GoString} {realName : GoString → GoString}

theorem Unshadowed.bare (r : Unshadowed i decls realName) {n : GoString} {v : TypeIdent}
    (h : (packageScope i.pkgPath decls).lookup n = some v) :
    (i.scope decls realName).resolve (none, n) = some v := by
  rw [FileScope.resolve, if_neg]
  · exact h
  · intro hm
    obtain ⟨s, hs, rfl⟩ := List.mem_map.1 hm
    obtain ⟨h1, h2⟩ := r s hs
    rw [FileScope.lookup, if_neg (show s.binds (i.scope decls realName).realName ∉ (packageScope i.pkgPath decls).decls
      from h1)] at h
    apply h2
    exact List.mem_map.2 ⟨_, GoMap.mem_of_get h, rfl⟩

theorem Readable.symbol (r : Readable i realName) {g : Symbol → Symbol} (hg : KeepsSymbols g) {s : Symbol}
    (hs : (packageScope i.pkgPath decls).Knows [s] []) (hq : QPkg i (g s).package) (hw : s.wellNamed = true) :
    (Unshadowed i decls realName → 
      (i.scope decls realName).resolve (g s).syntaxName = some ((packageScope i.pkgPath decls).symbolMeaning s)) ∧
    (g s).wellNamed = true := by
  obtain ⟨k1, k2, k3⟩ := hg s
  simp only [Symbol.wellNamed, Bool.and_eq_true] at hw ⊢
  rw [k1]
  have hmem : s ∈ [s] := by simp
  by_cases hb : s.package = ⟨[], []⟩
  · have he := k3 hb
    have hl := hs.bare s hmem hb
    have hn : (g s).syntaxName = (none, s.name) := by rw [he, Symbol.syntaxName, hb]; rfl
    rw [hn, FileScope.symbolMeaning, if_pos hb]
    refine ⟨?_, by rw [he, hb]; rfl, hw.2⟩
    cases hv : (packageScope i.pkgPath decls).lookup s.name with
    | none => exact absurd hv hl
    | some v => exact fun hu => hu.bare hv
  · rw [FileScope.symbolMeaning, if_neg hb]
    by_cases ho : s.package.importPath = i.pkgPath
    · have hnil : (g s).package.name = [] := by
        rcases hq with hq | ⟨-, hq⟩ | ⟨hq, -⟩
        · rw [hq]
        · exact hq
        · rw [k2] at hq; exact absurd ho hq
      have hn : (g s).syntaxName = (none, s.name) := by rw [Symbol.syntaxName, hnil, k1]; rfl
      rw [hn, hnil]
      refine ⟨fun hu => hu.bare ?_, rfl, hw.2⟩
      rw [FileScope.lookup, if_pos (hs.own s hmem hb ho), ho]; rfl
    · have hp := hs.other s hmem hb ho
      rcases hq with hq | ⟨hq, -⟩ | ⟨-, d, hd, hq⟩
      · rw [hq] at k2; exact absurd k2.symm hp
      · rw [k2] at hq; exact absurd hq ho
      · rw [k2] at hd
        have hi : isIdent (g s).package.name = true := by
          rw [← hq]
          exact (r.identNames _ _ hd).resolve_right fun h => hp h.1
        have hne : (g s).package.name ≠ [] := by intro h; rw [h] at hi; simp [isIdent] at hi
        have hn : (g s).syntaxName = (some d.packageName, s.name) := by
          rw [Symbol.syntaxName, if_neg hne, k1, hq]
        rw [hn, FileScope.resolve]
        have := resolve_of_trueNames r.inv r.trueNames hd
        refine ⟨fun _ => ?_, by simp [hi], hw.2⟩
        simp only [Imports.scope, this]

theorem FileScope.Knows.one {sc : FileScope} {ss ks} (hk : sc.Knows ss ks) {s} (hs : s ∈ ss) :
    sc.Knows [s] [] := by
  refine ⟨fun x hx => ?_, fun x hx => ?_, fun x hx => ?_, fun x hx => by simp at hx⟩ <;>
    rw [List.mem_singleton] at hx <;> subst hx
  · exact hk.own _ hs
  · exact hk.bare _ hs
  · exact hk.other _ hs

theorem Readable.resolves (r : Readable i realName) {g : Symbol → Symbol} (hg : KeepsSymbols g)
    {ss : List Symbol} {ks : List ReflectKind} (hk : (packageScope i.pkgPath decls).Knows ss ks)
    (hb : ∀ k ∈ ks, k.isBasic = true)
    (hq : ∀ s ∈ ss, QPkg i (g s).package) (hw : ∀ s ∈ ss, s.wellNamed = true) :
    (Unshadowed i decls realName → Resolves (i.scope decls realName).resolve g
      (packageScope i.pkgPath decls).symbolMeaning ss ks) ∧
      ∀ s ∈ ss, (g s).wellNamed = true := by
  refine ⟨fun hu => ⟨fun s hs => (r.symbol hg (hk.one hs) (hq s hs) (hw s hs)).1 hu, fun k hkk => hu.bare ?_⟩,
    fun s hs => (r.symbol hg (hk.one hs) (hq s hs) (hw s hs)).2⟩
  rw [FileScope.lookup, if_neg (hk.basics k hkk)]
  exact universe_kindIdent (hb k hkk)

theorem Readable.type (r : Readable i realName) {g : Symbol → Symbol} (hg : KeepsSymbols g) {t : TypeName}
    (hk : (packageScope i.pkgPath decls).Knows t.symbols t.basics) (hv : t.valid = true)
    (hw : t.wellNamed = true) (hq : ∀ pk ∈ (t.mapSymbols g).symbols.map (·.package), QPkg i pk) :
    (Unshadowed i decls realName → (t.mapSymbols g).syntax.resolve (i.scope decls realName).resolve =
      some (t.meaning (packageScope i.pkgPath decls).symbolMeaning)) ∧ (t.mapSymbols g).wellNamed = true := by
  obtain ⟨h1, h2⟩ := r.resolves hg hk (basics_valid hv) (fun s hs => hq _ (by
    rw [symbols_mapSymbols, List.map_map]; exact List.mem_map.2 ⟨s, hs, rfl⟩)) (wellNamed_symbols hw)
  exact ⟨fun hu => resolve_type hv (h1 hu), wellNamed_map hw h2⟩

theorem Readable.sig (r : Readable i realName) {g : Symbol → Symbol} (hg : KeepsSymbols g) {t : Signature}
    (hk : (packageScope i.pkgPath decls).Knows t.symbols t.basics) (hv : t.valid = true)
    (hw : t.wellNamed = true) (hq : ∀ pk ∈ (t.mapSymbols g).symbols.map (·.package), QPkg i pk) :
    (Unshadowed i decls realName → (t.mapSymbols g).syntax.resolve (i.scope decls realName).resolve =
      some (t.meaning (packageScope i.pkgPath decls).symbolMeaning)) ∧ (t.mapSymbols g).wellNamed = true := by
  obtain ⟨h1, h2⟩ := r.resolves hg hk (basics_validSig hv) (fun s hs => hq _ (by
    rw [symbols_mapSymbols_sig, List.map_map]; exact List.mem_map.2 ⟨s, hs, rfl⟩)) (wellNamed_symbolsSig hw)
  exact ⟨fun hu => resolve_sig hv (h1 hu), wellNamed_mapSig hw h2⟩

/-! ### Bodies of types -/

mutual
theorem multiline_map (g : Symbol → Symbol) : ∀ t : TypeName, (t.mapSymbols g).multiline = t.multiline
  | .struct fs => multilineFields_map g fs
  | .interface ms _ => unproblematic_mapMethods g ms
  | .nil | .basic _ | .named _ => rfl
  | .ptr e => unproblematic_map g (.ptr e)
  | .slice e => unproblematic_map g (.slice e)
  | .array e n => unproblematic_map g (.array e n)
  | .map e k => unproblematic_map g (.map e k)
  | .chan e d => unproblematic_map g (.chan e d)
  | .func s => unproblematic_map g (.func s)
theorem multilineFields_map (g : Symbol → Symbol) : ∀ l : List FieldType,
    multilineFields (mapSymbolsFields g l) = multilineFields l
  | [] => rfl
  | ⟨n, t, tag⟩ :: l => by
    have hb : (t.mapSymbols g).isBlock = t.isBlock := by cases t <;> rfl
    rw [mapSymbolsFields, multilineFields, multilineFields, hb, multiline_map g t, multilineFields_map g l]
end

theorem isBlock_map (g : Symbol → Symbol) (t : TypeName) : (t.mapSymbols g).isBlock = t.isBlock := by
  cases t <;> rfl

theorem onLine_map {g : Symbol → Symbol} {t : TypeName} (h : t.onLine)
    (hw : (t.mapSymbols g).wellNamed = true) : (t.mapSymbols g).onLine :=
  ⟨by rw [valid_mapSymbols]; exact h.1, hw, by rw [unproblematic_map]; exact h.2.2⟩

variable {h h' : Heap} {i0 : Imports}

theorem elem_reads (r : Readable i realName) (a : Later h i0 h' i) {e : IfaceElem} {T : GoElem TypeIdent}
    (he : ElemMeans (packageScope i.pkgPath decls) h e T) (hq : ∀ pk, WrittenIfaceElem h' e pk → QPkg i pk) :
    ∃ E, ElemOf h' e E ∧ (Unshadowed i decls realName → ∀ l l', resolveElems (i.scope decls realName).resolve l = some l' →
      resolveElems (i.scope decls realName).resolve (E :: l) = some (T :: l')) := by
  cases he with
  | embed k1 k2 k3 =>
    obtain ⟨g, hg, e1⟩ := a.embed_map k1
    obtain ⟨r1, r2⟩ := r.symbol hg k3 (hq _ (.embed e1)) k2
    refine ⟨_, .embed e1 r2, fun hu l l' hl => ?_⟩
    simp only [resolveElems, r1 hu, hl, Option.bind_some, Option.map_some]
  | method k1 k2 k3 k4 k5 k6 =>
    obtain ⟨g, hg, e1⟩ := a.method_map k1 k3
    obtain ⟨r1, r2⟩ := r.sig hg k6 k3 k4 fun pk hp => hq _ (.method e1 hp)
    refine ⟨_, .method e1 k2 (by rw [valid_mapSymbols_sig]; exact k3) r2
      (by rw [unproblematic_mapSig]; exact k5), fun hu l l' hl => ?_⟩
    simp only [resolveElems, r1 hu, hl, Option.bind_some, Option.map_some]

theorem elems_read (r : Readable i realName) (a : Later h i0 h' i) {es : List IfaceElem}
    {ts : List (GoElem TypeIdent)} (he : ElemsMean (packageScope i.pkgPath decls) h es ts)
    (hq : ∀ e ∈ es, ∀ pk, WrittenIfaceElem h' e pk → QPkg i pk) :
    ∃ l, ElemsOf h' es l ∧ (Unshadowed i decls realName → resolveElems (i.scope decls realName).resolve l = some ts) := by
  induction he with
  | nil => exact ⟨[], .nil, fun _ => rfl⟩
  | cons h1 _ ih =>
    obtain ⟨E, e1, e2⟩ := elem_reads r a h1 (hq _ (by simp))
    obtain ⟨l, l1, l2⟩ := ih fun e he => hq e (by simp [he])
    exact ⟨_, .cons e1 l1, fun hu => e2 hu _ _ (l2 hu)⟩

mutual
theorem body_reads (r : Readable i realName) (a : Later h i0 h' i) : ∀ {p : Ptr} {ts : TypeSpec}
    {T : GoType TypeIdent}, h.types p = some ts → BodyMeans (packageScope i.pkgPath decls) h ts T →
    (∀ pk, WrittenBody h' p pk → QPkg i pk) →
    ∃ ts' S, h'.types p = some ts' ∧ ts'.name = ts.name ∧ ts'.isAlias = ts.isAlias ∧ BodyOf h' ts' S ∧
      (Unshadowed i decls realName → S.resolve (i.scope decls realName).resolve = some T)
  | p, ts, _, hp, .struct (fs := fs) k1 k2 k3, hq => by
    obtain ⟨g, hg, e1⟩ := a.type_map hp k2
    obtain ⟨l, l1, l2⟩ := fields_read r a k3
      (fun q hm f t pk k4 k5 k6 => hq pk (.field e1 hm k4 k5 k6))
      (fun q hm f x tr pk k4 k5 k6 k7 k8 => hq pk (.unnamed e1 hm k4 k5 k6 k7 k8))
    refine ⟨_, _, e1, rfl, rfl, .struct (fs := mapSymbolsFields g fs) (by simp only [k1]; rfl) l1, fun hu => ?_⟩
    simp only [GoType.resolve, l2 hu, Option.map_some]
  | p, ts, _, hp, .iface (ms := ms) (es := es) k1 k2 k3, hq => by
    obtain ⟨g, hg, e1⟩ := a.type_map hp k2
    obtain ⟨l, l1, l2⟩ := elems_read r a k3 (fun e he pk k4 => hq pk (.iface e1 he k4))
    refine ⟨_, _, e1, rfl, rfl, .iface (ms := mapSymbolsMethods g ms) (es := es.map g)
      (by simp only [k1]; rfl) l1, fun hu => ?_⟩
    simp only [GoType.resolve, l2 hu, Option.map_some]
  | p, ts, _, hp, .other k1 k2 k3, hq => by
    obtain ⟨g, hg, e1⟩ := a.type_map hp k2.1
    obtain ⟨r1, r2⟩ := r.type hg k3 k2.1 k2.2.1 fun pk hpk => hq pk (.underlying e1 hpk)
    exact ⟨_, _, e1, rfl, rfl, .other (by rw [isBlock_map]; exact k1) (onLine_map k2 r2), r1⟩
theorem fields_read (r : Readable i realName) (a : Later h i0 h' i) : ∀ {ps : List Ptr}
    {T : List (GoField TypeIdent)}, FieldsMean (packageScope i.pkgPath decls) h ps T →
    (∀ q ∈ ps, ∀ f t pk, h'.fields q = some f → f.type = .name t → pk ∈ t.symbols.map (·.package) → QPkg i pk) →
    (∀ q ∈ ps, ∀ f x tr pk, h'.fields q = some f → f.type = .spec x → h'.types x = some tr → tr.name = [] →
      WrittenBody h' x pk → QPkg i pk) →
    ∃ S, FieldsOf h' ps S ∧ (Unshadowed i decls realName → resolveFields (i.scope decls realName).resolve S = some T)
  | _, _, .nil, _, _ => ⟨[], .nil, fun _ => rfl⟩
  | q :: ps, _, .cons k1 k2 k3, h1, h2 => by
    obtain ⟨l, l1, l2⟩ := fields_read r a k3 (fun q hq => h1 q (by simp [hq])) (fun q hq => h2 q (by simp [hq]))
    obtain ⟨f', S, e1, e2, e3⟩ := field_reads r a k1 k2 (h1 q (by simp)) (h2 q (by simp))
    exact ⟨_, .cons e1 e2 l1, fun hu => e3 hu _ _ (l2 hu)⟩
theorem field_reads (r : Readable i realName) (a : Later h i0 h' i) : ∀ {q : Ptr} {f : FieldSpec}
    {T : GoField TypeIdent}, h.fields q = some f → FieldMeans (packageScope i.pkgPath decls) h f T →
    (∀ f t pk, h'.fields q = some f → f.type = .name t → pk ∈ t.symbols.map (·.package) → QPkg i pk) →
    (∀ f x tr pk, h'.fields q = some f → f.type = .spec x → h'.types x = some tr → tr.name = [] →
      WrittenBody h' x pk → QPkg i pk) →
    ∃ f' S, h'.fields q = some f' ∧ FieldOf h' f' S ∧
      (Unshadowed i decls realName → ∀ l l', resolveFields (i.scope decls realName).resolve l = some l' →
        resolveFields (i.scope decls realName).resolve (S :: l) = some (T :: l'))
  | q, f, _, hq, .line (t := t) k1 k2 k3 k4 k5, h1, _ => by
    obtain ⟨g, hg, e1⟩ := a.field_map hq k1 k3.1
    obtain ⟨r1, r2⟩ := r.type hg k5 k3.1 k3.2.1 fun pk hpk => h1 _ _ pk e1 rfl hpk
    refine ⟨_, _, e1, .line rfl (by rw [isBlock_map]; exact k2) (onLine_map k3 r2)
      (by rw [embeddable_map]; exact k4), fun hu l l' hl => ?_⟩
    simp only [resolveFields, r1 hu, hl, Option.bind_some, Option.map_some]
  | q, f, _, hq, .block (t := t) k1 k2 k3 k4 k5 k6 k7 k8, h1, _ => by
    obtain ⟨g, hg, e1⟩ := a.field_map hq k1 k3
    obtain ⟨r1, r2⟩ := r.type hg k8 k3 k4 fun pk hpk => h1 _ _ pk e1 rfl hpk
    refine ⟨_, _, e1, .block rfl (by rw [isBlock_map]; exact k2) (by rw [valid_mapSymbols]; exact k3) r2
      (by rw [multiline_map]; exact k5) k6 k7, fun hu l l' hl => ?_⟩
    simp only [resolveFields, r1 hu, hl, Option.bind_some, Option.map_some]
  | q, f, _, hq, .unnamed (q := x) (ts := ts) k1 k2 k3 k4 k5 k6, _, h2 => by
    have e1 := a.field_same hq (by rw [k1]; simp)
    obtain ⟨tr, g1, g2, -⟩ := a.stays.types x ts k2
    obtain ⟨ts', S, e2, e3, -, e5, e6⟩ := body_reads r a k2 k4
      fun pk hpk => h2 f x tr pk e1 k1 g1 (g2.trans k3) hpk
    refine ⟨_, _, e1, .unnamed k1 e2 (e3.trans k3) e5 k5 k6, fun hu l l' hl => ?_⟩
    simp only [resolveFields, e6 hu, hl, Option.bind_some, Option.map_some]
end

/-! ### Elements of files -/

theorem types_read (r : Readable i realName) (a : Later h i0 h' i) {ps : List Ptr}
    {ts : List (GoString × Bool × GoType TypeIdent)}
    (hm : List.Forall₂ (TypeMeans (packageScope i.pkgPath decls) h) ps ts)
    (hq : ∀ q ∈ ps, ∀ pk, WrittenBody h' q pk → QPkg i pk) :
    ∃ ds, List.Forall₂ (DeclaresType h') ps ds ∧
      (Unshadowed i decls realName → ds.mapM (DeclaredType.meaning (i.scope decls realName).resolve) = some ts) := by
  induction hm with
  | nil => exact ⟨[], .nil, fun _ => rfl⟩
  | @cons p d _ _ h1 _ ih =>
    obtain ⟨ts, t, k1, k2, k3, rfl⟩ := h1
    obtain ⟨ts', S, e1, e2, e3, e4, e5⟩ := body_reads r a k1 k3 (hq p (by simp))
    obtain ⟨ds, l1, l2⟩ := ih fun q hm => hq q (by simp [hm])
    refine ⟨⟨ts.name, ts.isAlias, S⟩ :: ds, .cons ⟨ts', e1, by rw [e2]; exact k2, e2.symm, e3.symm, e4⟩ l1, fun hu => ?_⟩
    simp only [List.mapM_cons, DeclaredType.meaning, e5 hu, l2 hu, Option.map_some]
    rfl

theorem values_read {env : Env} (r : Readable i realName) (a : Later h i0 h' i) {c : Bool} {ps : List Ptr}
    {ts : List (List GoString × Option (GoType TypeIdent))}
    (hm : List.Forall₂ (ValueMeans (packageScope i.pkgPath decls) h c) ps ts)
    (hc : ∀ q ∈ ps, ∀ c, h'.values q = some c → ∃ i, InitReads env h' c.init i)
    (hq : ∀ q ∈ ps, ∀ v t pk, h'.values q = some v → v.type = .name t → pk ∈ t.symbols.map (·.package) →
      QPkg i pk) :
    ∃ ds, List.Forall₂ (DeclaresValue env h' c) ps ds ∧
      (Unshadowed i decls realName → ds.mapM (ValueSyn.meaning (i.scope decls realName).resolve) = some ts) := by
  induction hm with
  | nil => exact ⟨[], .nil, fun _ => rfl⟩
  | @cons p d _ _ h1 _ ih =>
    obtain ⟨v, t, k1, k2, k3, k4, k5, rfl⟩ := h1
    obtain ⟨ds, l1, l2⟩ := ih (fun q hm => hc q (by simp [hm])) (fun q hm => hq q (by simp [hm]))
    have hinit : ∀ {o x}, InitReads env h' o x → x.isSome = o.isSome := by
      intro o x hx; cases hx <;> rfl
    generalize hvt : v.type = vt at k4
    cases k4 with
    | nil =>
      have e1 := a.value_same k1 (by rw [hvt]; simp)
      obtain ⟨x, hx⟩ := hc p (by simp) v e1
      refine ⟨⟨v.names, none, x⟩ :: ds, .cons ⟨v, e1, k2, k3, rfl, by rw [hvt]; exact .nil, hx, ?_⟩ l1, fun hu => ?_⟩
      · simp only [ValueSyn.complete, hinit hx]
        cases c <;> first | (simp; done) | simpa using k5
      · simp only [List.mapM_cons, ValueSyn.meaning, l2 hu]
        rfl
    | @name t j1 j2 =>
      obtain ⟨g, hg, e1⟩ := a.value_map k1 hvt j1.1
      obtain ⟨r1, r2⟩ := r.type hg j2 j1.1 j1.2.1 fun pk hpk => hq p (by simp) _ _ pk e1 rfl hpk
      obtain ⟨x, hx⟩ := hc p (by simp) _ e1
      refine ⟨⟨v.names, some (t.mapSymbols g).syntax, x⟩ :: ds, .cons ⟨_, e1, k2, k3, rfl, .name (onLine_map j1 r2),
        hx, ?_⟩ l1, fun hu => ?_⟩
      · simp only [ValueSyn.complete, hinit hx]
        cases c <;> first | (simp; done) | simpa using k5
      · simp only [List.mapM_cons, ValueSyn.meaning, r1 hu, l2 hu, Option.map_some]
        rfl

theorem elem_declares {env : Env} (r : Readable i realName) (a : Later h i0 h' i) {e : FileElem}
    {M : DeclMeaning} (hm : Intends (packageScope i.pkgPath decls) h e M) (hc : CodeReads env h' e)
    (hq : ∀ pk, Written h' e pk → QPkg i pk) :
    ∃ d, Declares env h' e d ∧ (Unshadowed i decls realName → d.meaning (i.scope decls realName).resolve = some M) := by
  cases hm with
  | @types p d ts k1 k2 k3 =>
    have e1 : h'.typeDecls p = some d := by rw [a.stays.typeDecls]; exact k1
    obtain ⟨ds, l1, l2⟩ := types_read r a k3 fun q hm pk hpk => hq pk (.type e1 hm hpk)
    by_cases hs : d.types.length = 1 ∧ d.comment = []
    · have hl := l1.length_eq
      rw [hs.1] at hl
      match ds, hl with
      | [x], _ =>
        refine ⟨_, .type e1 hs.1 hs.2 l1, fun hu => ?_⟩
        have l2 := l2 hu
        simp only [List.mapM_cons, List.mapM_nil] at l2
        rw [DeclSyn.meaning]
        cases hx : x.meaning (i.scope decls realName).resolve with
        | none => rw [hx] at l2; simp at l2
        | some y => rw [hx] at l2; cases l2; rfl
    · refine ⟨_, .types e1 ?_ l1, fun hu => by rw [DeclSyn.meaning, l2 hu]; rfl⟩
      by_cases hcm : d.comment = []
      · refine .inl ?_
        have hne := k2.resolve_right (by simp [hcm])
        have := List.length_pos_iff.2 hne
        have : d.types.length ≠ 1 := fun h => hs ⟨h, hcm⟩
        omega
      · exact .inr hcm
  | @values p d vs k1 k2 k3 =>
    have e1 : h'.valueDecls p = some d := by rw [a.stays.valueDecls]; exact k1
    cases hc with
    | @values _ d' c1 c2 =>
      rw [e1] at c1
      obtain rfl := Option.some.inj c1
      obtain ⟨ds, l1, l2⟩ := values_read r a k3 c2 fun q hm v t pk hv ht hpk =>
        hq pk (.valueType e1 hm hv ht hpk)
      by_cases hs : d.specs.length = 1 ∧ d.comment = []
      · have hl := l1.length_eq
        rw [hs.1] at hl
        match ds, hl with
        | [x], _ =>
          refine ⟨_, .value e1 hs.1 hs.2 l1, fun hu => ?_⟩
          have l2 := l2 hu
          simp only [List.mapM_cons, List.mapM_nil] at l2
          rw [DeclSyn.meaning]
          cases hx : x.meaning (i.scope decls realName).resolve with
          | none => rw [hx] at l2; simp at l2
          | some y => rw [hx] at l2; cases l2; rfl
      · refine ⟨_, .values e1 ?_ l1, fun hu => by rw [DeclSyn.meaning, l2 hu]; rfl⟩
        by_cases hcm : d.comment = []
        · refine .inl ?_
          have hne := k2.resolve_right (by simp [hcm])
          have := List.length_pos_iff.2 hne
          have : d.specs.length ≠ 1 := fun h => hs ⟨h, hcm⟩
          omega
        · exact .inr hcm
  | @func p f k1 k2 k3 k4 k5 k6 k7 =>
    obtain ⟨g, hg, e1⟩ := a.func_map k1 k3
    obtain ⟨r1, r2⟩ := r.sig hg k7 k3 k4 fun pk hpk => hq pk (.funcSig e1 hpk)
    cases hc with
    | @func _ f' code body c1 c2 c3 =>
      rw [e1] at c1
      obtain rfl := Option.some.inj c1
      refine ⟨_, .func e1 k2 (by rw [valid_mapSymbols_sig]; exact k3) r2
        (by rw [unproblematic_mapSig]; exact k5) (fun x hx => ⟨(k6 x hx).1, (k6 x hx).2.1⟩) c2 c3, fun hu => ?_⟩
      dsimp only
      cases hr : f.receiver with
      | none => simp only [Option.map_none, DeclSyn.meaning, r1 hu, Option.map_some]
      | some x =>
        have hx := hu.bare (n := x.type) (v := .declared i.pkgPath x.type) (by
          rw [FileScope.lookup, if_pos (k6 x hr).2.2]; rfl)
        simp only [Option.map_some, DeclSyn.meaning, r1 hu, ReceiverSpec.param, GoParam.resolve,
          ReceiverSpec.meaning]
        cases x.isPointer <;> simp [GoType.resolve, hx, packageScope]

theorem elems_declare {env : Env} (r : Readable i realName) (a : Later h i0 h' i) {es : List FileElem}
    {Ms : List DeclMeaning} (hm : List.Forall₂ (Intends (packageScope i.pkgPath decls) h) es Ms)
    (hc : ∀ e ∈ es, CodeReads env h' e) (hq : ∀ e ∈ es, ∀ pk, Written h' e pk → QPkg i pk) :
    ∃ ds, List.Forall₂ (Declares env h') es ds ∧
      (Unshadowed i decls realName → ds.mapM (DeclSyn.meaning (i.scope decls realName).resolve) = some Ms) := by
  induction hm with
  | nil => exact ⟨[], .nil, fun _ => rfl⟩
  | @cons e M _ _ h1 _ ih =>
    obtain ⟨d, d1, d2⟩ := elem_declares r a h1 (hc e (by simp)) (hq e (by simp))
    obtain ⟨ds, l1, l2⟩ := ih (fun q hm => hc q (by simp [hm])) (fun q hm => hq q (by simp [hm]))
    refine ⟨d :: ds, .cons d1 l1, fun hu => ?_⟩
    simp only [List.mapM_cons, d2 hu, l2 hu]
    rfl

theorem syn_spec : ∀ s : ImportSpec, s.syn.spec = s := by
  rintro ⟨a, p⟩
  simp only [ImportSpec.syn, ImportSyn.spec, optName]
  split
  · rename_i h; simp [h]
  · rfl

theorem scope_syn (i : Imports) (n : GoString) (ds : List DeclSyn) (decls : List GoString)
    (realName : GoString → GoString) :
    SourceFile.scope ⟨n, i.importSpecs.map ImportSpec.syn, ds⟩ i.pkgPath decls realName
      = i.scope decls realName := by
  simp only [SourceFile.scope, Imports.scope, List.map_map]
  congr 1
  exact (List.map_congr_left (fun s _ => syn_spec s)).trans (List.map_id _)

end

end Gopoet
