import Verif.Spec.Locals
import Verif.Props.FileNames
import Verif.Props.TemplateFile
import Verif.Props.Sharing
/-! Property C72: parameters do not hide what the code of a function refers to. -/

namespace Gopoet
open Imports

/-! ### The names that a function declares -/

theorem filterMap_syntaxArgs (v named : Bool) : ∀ l : List ArgType,
    (syntaxArgs v named l).filterMap GoParam.ident = if named then l.map fun a => if a.name = [] then b! "_" else a.name else []
  | [] => by cases named <;> rfl
  | ⟨n, t⟩ :: l => by
    rw [syntaxArgs, List.filterMap_cons, filterMap_syntaxArgs v named l]
    cases named <;> simp [GoParam.ident, paramNameOf]

theorem args_locals (v : Bool) (l : List ArgType) :
    ((syntaxArgs v (hasNames l) l).filterMap GoParam.ident).filter (· ≠ b! "_") =
      (l.map (·.name)).filter fun n => n ≠ [] ∧ n ≠ b! "_" := by
  rw [filterMap_syntaxArgs]
  cases h : hasNames l with
  | false =>
    symm
    simp only [Bool.false_eq_true, if_false, List.filter_nil, List.filter_eq_nil_iff, List.mem_map]
    rintro _ ⟨a, ha, rfl⟩
    have : a.name = [] := by
      by_contra hne
      have : hasNames l = true := List.any_eq_true.2 ⟨a, ha, by simpa using hne⟩
      rw [h] at this; cases this
    simp [this]
  | true =>
    simp only [if_true]
    clear h
    induction l with
    | nil => rfl
    | cons a l ih =>
      simp only [List.map_cons, List.filter_cons]
      rw [ih]
      by_cases he : a.name = []
      · simp [he]
      · simp [he]

/-- The function that is written for a spec declares the names that the spec has. -/
theorem locals_of_spec (f : FuncSpec) :
    FuncHeader.locals ⟨f.receiver.map ReceiverSpec.param, f.name, f.signature.syntax⟩ = f.locals := by
  rw [FuncHeader.locals, FuncSpec.locals]
  obtain ⟨args, results, v⟩ := f.signature
  rw [Signature.syntax, GoSig.variables]
  simp only [List.filterMap_append, List.filter_append, args_locals, List.append_assoc]
  congr 1
  cases f.receiver with
  | none => rfl
  | some r =>
    by_cases hn : r.name = []
    · simp [ReceiverSpec.param, GoParam.ident, hn, optName]
    · simp [ReceiverSpec.param, GoParam.ident, hn, optName, List.filter_cons]

/-! ### What is written, in the body of a function -/

theorem readIn_some {sc : FileScope} {locals : List GoString} {s : GoString} {r : Referent} :
    sc.readIn locals s = some r ↔ sc.read s = some r ∧ ∀ a, (splitDots s).head? = some a → a ∉ locals := by
  rw [FileScope.readIn]
  cases hs : splitDots s with
  | nil => exact absurd hs (splitDots_ne_nil s)
  | cons a l =>
    dsimp only
    by_cases ha : a ∈ locals
    · simp [ha]
    · simp [ha]

theorem resolveIn_some {sc : FileScope} {locals : List GoString} {n : SynName} {t : TypeIdent} :
    sc.resolveIn locals n = some t ↔ sc.resolve n = some t ∧ n.1.getD n.2 ∉ locals := by
  obtain ⟨_ | q, n⟩ := n
  · rw [FileScope.resolveIn]
    by_cases h : n ∈ locals <;> simp [h]
  · rw [FileScope.resolveIn]
    by_cases h : q ∈ locals <;> simp [h]

theorem splitDots_head {w s : GoString} (hw : isIdent w = true) : (splitDots (w ++ b! "." ++ s)).head? = some w := by
  rw [List.append_assoc, show b! "." ++ s = dot :: s from rfl, splitDots_append (isIdent_noDot hw)]
  rfl

/-- How a symbol is written whose package is imported, going by its first name. -/
theorem written_head {realName : GoString → GoString} {k : Imports} (inv : Inv k) (htn : TrueNames realName k)
    {s : Symbol} (hm : ∀ p ∈ packagesOf [s], HasName k p) (hw : isIdent s.name = true)
    (hident : ∀ p ∈ k.importSpecs, isIdent (p.binds realName) = true) :
    isIdent (s.headIn k) = true ∧ (writtenSymbol k s = s.headIn k ∨ ∃ r, writtenSymbol k s = s.headIn k ++ b! "." ++ r) := by
  by_cases hb : s.package = ⟨[], []⟩
  · rw [Symbol.headIn, if_pos (.inl hb), writtenSymbol, if_pos hb]
    exact ⟨hw, .inl rfl⟩
  · by_cases ho : s.package.importPath = k.pkgPath
    · rw [Symbol.headIn, if_pos (.inr ho), writtenSymbol, if_neg hb, prefixOf_own ho]
      exact ⟨hw, .inl rfl⟩
    · rcases hm s.package (by simp [packagesOf, hb]) with h | h
      · exact absurd h ho
      · obtain ⟨d, hd⟩ := Option.ne_none_iff_exists'.1 h
        rw [Symbol.headIn, if_neg (by simp [hb, ho]), writtenSymbol, if_neg hb, prefixOf_known ho hd,
          qualifierOf_of_get inv hd]
        exact ⟨isIdent_of_resolves hident (resolve_of_trueNames inv htn hd), .inr ⟨s.name, rfl⟩⟩

/-- The text of a reference means it in the body of a function if it does in the file, and the function declares none of
the names that it relies on. -/
theorem text_means_in_iff (tbl : Nat → Bool) {realName : GoString → GoString} {decls : List GoString} {k : Imports}
    {r : Reference} (inv : Inv k) (htn : TrueNames realName k) (hm : ∀ p ∈ r.mentions, HasName k p) (hv : r.valid)
    (hw : r.wellNamed = true) (hident : ∀ p ∈ k.importSpecs, isIdent (p.binds realName) = true) {s : GoString}
    (hs : r.text tbl k = .ok s) (locals : List GoString) :
    (k.scope decls realName).MeansIn locals s r ↔
      (k.scope decls realName).Means s r ∧ ∀ n ∈ r.headsIn k, n ∉ locals := by
  cases r with
  | package p =>
    simp only [FileScope.MeansIn, FileScope.Means, readIn_some, Reference.headsIn, List.mem_singleton, forall_eq]
    refine and_congr_right fun _ => ?_
    cases hs
    by_cases ho : p.importPath = k.pkgPath
    · rw [prefixOf_own ho, Imports.qualifierOf, if_pos ho]
      simp [splitDots]
    · rcases hm p (by simp [Reference.mentions]) with h | h
      · exact absurd h ho
      · obtain ⟨d, hd⟩ := Option.ne_none_iff_exists'.1 h
        have hi := isIdent_of_resolves hident (resolve_of_trueNames inv htn hd)
        rw [prefixOf_known ho hd, show (d.packageName ++ b! ".").dropLast = d.packageName by simp,
          qualifierOf_of_get inv hd, splitDots_one hi]
        simp
  | symbol x =>
    obtain ⟨h1, h2⟩ := written_head inv htn hm hw hident
    simp only [FileScope.MeansIn, FileScope.Means, readIn_some, Reference.headsIn, List.mem_singleton, forall_eq]
    have : (splitDots s).head? = some (x.headIn k) := by
      cases hs
      rcases h2 with h2 | ⟨y, h2⟩
      · rw [h2, splitDots_one h1]; rfl
      · rw [h2, splitDots_head h1]
    simp only [this, Option.some.injEq, forall_eq', ← and_assoc, exists_and_right]
  | method m =>
    rw [Reference.wellNamed, Bool.and_eq_true] at hw
    obtain ⟨h1, h2⟩ := written_head inv htn hm hw.1 hident
    simp only [FileScope.MeansIn, FileScope.Means, readIn_some, Reference.headsIn, List.mem_singleton, forall_eq]
    have : (splitDots s).head? = some (m.type.headIn k) := by
      cases hs
      rcases h2 with h2 | ⟨y, h2⟩
      · rw [h2, splitDots_head h1]
      · rw [h2]
        have := splitDots_head (s := y ++ b! "." ++ m.method) h1
        simpa only [List.append_assoc] using this
    simp only [this, Option.some.injEq, forall_eq', ← and_assoc, exists_and_right]
  | type t =>
    have hcov : ∀ s ∈ t.symbols, Covered k s := fun s hs => covered_of_known fun p hp => hm p (by
      rw [packagesOf, List.mem_filter] at hp
      rw [Reference.mentions, packagesOf, List.mem_filter]
      refine ⟨?_, hp.2⟩
      obtain ⟨x, hx, rfl⟩ := List.mem_map.1 hp.1
      cases List.mem_singleton.1 hx
      exact List.mem_map.2 ⟨_, hs, rfl⟩)
    have hC07 : ∀ p d, k.importsByPath.get p = some d → p ≠ k.pkgPath →
        resolveQualifier realName k.importSpecs d.packageName = [p] := fun p d hd _ => resolve_of_trueNames inv htn hd
    rw [Reference.text, withPrefix_prefixOf] at hs
    obtain ⟨s', hs', hp, hex⟩ := C17_shape tbl (t := t.mapSymbols k.symIn) (by rw [valid_mapSymbols]; exact hv)
      (wellNamed_symIn rfl hC07 hident hw hcov)
    rw [unproblematic_map] at hp hex
    rw [hs'] at hs
    obtain rfl := Outcome.ok.inj hs
    simp only [FileScope.MeansIn, FileScope.Means, FileScope.typeMeaning, FileScope.typeMeaningIn]
    by_cases hu : t.unproblematic = true
    · rw [hp hu, Option.bind_some, Option.bind_some]
      have hhead : ∀ s ∈ t.symbols, (k.symIn s).syntaxName.1.getD (k.symIn s).syntaxName.2 = s.headIn k := by
        intro s hs
        rcases symIn_cases rfl hC07 hident (hcov s hs) with ⟨h1, h2⟩ | ⟨h1, h2, h3⟩ | ⟨h1, h2, d, h3, h4, h5, -⟩
        · rw [h2, Symbol.headIn, if_pos (.inl h1)]
          simp [Symbol.syntaxName, h1]
        · rw [h3, Symbol.headIn, if_pos (.inr h2)]
          rfl
        · rw [h5, Symbol.headIn, if_neg (by simp [h1, h2]), qualifierOf_of_get inv h3]
          rfl
      constructor
      · intro h
        obtain ⟨h1, h2⟩ := of_resolve_type hv h
        refine ⟨resolve_type hv ⟨fun s hs => (resolveIn_some.1 (h1 s hs)).1, fun b hb => (resolveIn_some.1 (h2 b hb)).1⟩, ?_⟩
        intro n hn
        rw [Reference.headsIn, List.mem_append, List.mem_map, List.mem_map] at hn
        rcases hn with ⟨s, hs, rfl⟩ | ⟨b, hb, rfl⟩
        · rw [← hhead s hs]
          exact (resolveIn_some.1 (h1 s hs)).2
        · exact (resolveIn_some.1 (h2 b hb)).2
      · rintro ⟨h, hl⟩
        obtain ⟨h1, h2⟩ := of_resolve_type hv h
        refine resolve_type hv ⟨fun s hs => resolveIn_some.2 ⟨h1 s hs, ?_⟩, fun b hb => resolveIn_some.2 ⟨h2 b hb, ?_⟩⟩
        · rw [hhead s hs]
          exact hl _ (List.mem_append_left _ (List.mem_map.2 ⟨s, hs, rfl⟩))
        · exact hl _ (List.mem_append_right _ (List.mem_map.2 ⟨b, hb, rfl⟩))
    · have no : ∀ f, (parseGoType s').bind (GoType.resolve f) ≠ some (t.meaning (k.scope decls realName).symbolMeaning) := by
        intro f hf
        obtain ⟨u, hpu, hres⟩ := Option.bind_eq_some_iff.1 hf
        exact hu (hex u hpu (by rw [shape_of_resolve hres, shape_meaning]))
      exact ⟨fun h => absurd h (no _), fun h => absurd h.1 (no _)⟩

/-! ### Files -/

theorem names_mapSymbolsArgs (g : Symbol → Symbol) : ∀ l : List ArgType, (mapSymbolsArgs g l).map (·.name) = l.map (·.name)
  | [] => rfl
  | ⟨n, t⟩ :: l => by rw [mapSymbolsArgs, List.map_cons, List.map_cons, names_mapSymbolsArgs g l]

/-- Qualification does not change the names that a function declares. -/
theorem locals_later {h i h' i'} (s : Later h i h' i') {fp : Ptr} {fn : FuncSpec} (hfn : h.funcs fp = some fn)
    (hv : fn.signature.valid = true) : ∃ fn', h'.funcs fp = some fn' ∧ fn'.locals = fn.locals := by
  suffices ∃ fn', h'.funcs fp = some fn' ∧ fn'.signature.valid = true ∧ fn'.locals = fn.locals by
    obtain ⟨fn', h1, -, h2⟩ := this
    exact ⟨fn', h1, h2⟩
  refine s.induct (P := fun h' _ => ∃ fn', h'.funcs fp = some fn' ∧ fn'.signature.valid = true ∧ fn'.locals = fn.locals)
    ?_ (fun _ _ _ _ hp => hp) ⟨fn, hfn, hv, rfl⟩
  rintro h i h' i' s ⟨fn', h1, h2, h3⟩
  cases s with
  | @func p f t j hc hq =>
    by_cases e : fp = p
    · subst e
      rw [h1] at hc
      cases hc
      obtain ⟨j', k1, -⟩ := ensureAllTypesImported_eq (i := i) h2
      rw [hq] at k1
      cases k1
      refine ⟨_, upd_same .., ?_, ?_⟩
      · dsimp only
        rw [valid_mapSymbols_sig]
        exact h2
      · rw [← h3, FuncSpec.locals, FuncSpec.locals]
        dsimp only
        obtain ⟨args, results, v⟩ := fn'.signature
        simp only [Signature.mapSymbols, names_mapSymbolsArgs]
    · exact ⟨fn', (upd_ne _ _ e).trans h1, h2, h3⟩
  | _ => exact ⟨fn', h1, h2, h3⟩

/-- C72, exactly, for the lines of functions: in a file that was written, with truthful package names that are identifiers,
what is shown for an argument that stands for a reference refers to it in the body of the function if and only if it is the
reference that is written and nothing in it is hidden in the file (C66), and the function has no receiver, parameter or result
with one of the names that it relies on: the qualifiers, and the names that are written without one. What is missing from the
full property is the last condition: see `C72_full_fails`. -/
theorem C72_iff_partial {realName : GoString → GoString} {decls : List GoString} {env : Env} {fuel : Nat} {p : Ptr}
    {h h' : Heap} {f f' : GoFile} {text : GoString} (hf : h.files p = some f) (ht : TruthfulInput realName h f)
    (hi : NameableInput h f) (hr : renderFile env fuel p h = (.ok text, h')) (hf' : h'.files p = some f')
    (hne : [] ∉ f'.imports.importedPaths) {fp : Ptr} {fn : FuncSpec} (he : .func fp ∈ f.elements) (hfn : h.funcs fp = some fn)
    {fmt : GoString} {q : Ptr} (hl : .line fmt q ∈ fn.code) {l : List Arg} {n : Nat} {a : Arg} {ref : Reference}
    (hq : h.args q = some l) (hn : l[n]? = some a) (hd : Denotes h a ref) (hv : ref.valid) (hw : ref.wellNamed = true)
    (ha : ∀ o text, a ≠ .goObject o text) :
    ∃ l' a', h'.args q = some l' ∧ l'[n]? = some a' ∧
      ((∃ s, a'.shown env.isPrint h' = .str s ∧ (f'.imports.scope decls realName).MeansIn fn.locals s ref) ↔
        Stored a f'.imports ref ∧ (f'.imports.scope decls realName).Visible ref ∧
          ∀ n ∈ ref.headsIn f'.imports, n ∉ fn.locals) := by
  obtain ⟨history, hh, -⟩ := hi.history
  obtain ⟨l', a', h1, h2, h3, h4, h5⟩ := C33_file_partial hf ⟨_, _, hh⟩ hr hf' he (.func hfn hl) hq hn hd hv
  refine ⟨l', a', h1, h2, ?_⟩
  obtain ⟨inv, htn, hident⟩ := imports_after hf ht hi hr hf' hne
  obtain ⟨s, hs, hiff⟩ := text_means_iff env.isPrint (decls := decls) inv htn h3 hv hw hident
  have hin := text_means_in_iff env.isPrint (decls := decls) inv htn h3 hv hw hident hs fn.locals
  by_cases hst : Stored a f'.imports ref
  · obtain ⟨s', m1, m2⟩ := h4 hst
    rw [hs] at m2
    cases m2
    rw [← hiff, ← hin]
    constructor
    · rintro ⟨s', h6, h7⟩
      rw [m1] at h6
      cases h6
      exact ⟨hst, h7⟩
    · exact fun hv => ⟨s, m1 h', hv.2⟩
  · rw [h5 hst]
    refine ⟨fun ⟨s', h7, h8⟩ => ?_, fun h => absurd h.1 hst⟩
    obtain ⟨g, g', k1, k2, -, -, k5⟩ := qualifyFile_settled (qualifyFile_of_renderFile hr)
    rw [hf] at k1
    obtain rfl := Option.some.inj k1
    refine absurd (?_ : (f'.imports.scope decls realName).Means s' ref) (unstored_not_means (hd.later k5) hw ha hst h7)
    cases ref with
    | method m =>
      obtain ⟨e, e1, e2⟩ := h8
      exact ⟨e, e1, (readIn_some.1 e2).1⟩
    | _ => exact absurd trivial hst

/-- C72, exactly, for the templates of functions, under the conditions of C61 and C66. -/
theorem C72_template_iff_partial {realName : GoString → GoString} {decls : List GoString} {env : Env} {fuel : Nat} {p : Ptr}
    {h h' : Heap} {f f' : GoFile} {text : GoString} (hf : h.files p = some f) (htr : TruthfulInput realName h f)
    (hi : NameableInput h f) (hr : renderFile env fuel p h = (.ok text, h')) (hf' : h'.files p = some f')
    (hne : [] ∉ f'.imports.importedPaths) {fp : Ptr} {fn : FuncSpec} (he : .func fp ∈ f.elements) (hfn : h.funcs fp = some fn)
    {q : Ptr} (ht : .templ q ∈ fn.code) {n : Nat} {v : TVal}
    (hq : h.templs q = some ⟨n, v⟩) (hv : (TVal.iface acceptsAll v).validTypes = true)
    (hfl : (TVal.iface acceptsAll v).flatIfaces = true) (hcn : v.copyNames = []) (hc : v.noSpecs = true ∨ f.imports.pkgPath ≠ [])
    (hp : v.Preserved h f'.imports.qualifierOf) (own : TVal → Shown) {path : List TStep} {a : Bool} {w : TVal} {r : Reference}
    (hfo : (TVal.iface acceptsAll v).follow false path = some (a, w)) (hw : w.ref h a = some r) (hwn : r.wellNamed = true)
    (hsh : w.ShownRight env.isPrint own h f'.imports a) :
    ∃ d w' s, h'.templs q = some ⟨n, d⟩ ∧ (TVal.iface acceptsAll d).follow false path = some (a, w') ∧
      w'.shown env.isPrint own h' a = .str s ∧
      ((f'.imports.scope decls realName).MeansIn fn.locals s r ↔
        (f'.imports.scope decls realName).Visible r ∧ ∀ n ∈ r.headsIn f'.imports, n ∉ fn.locals) := by
  obtain ⟨hm, hv', d, w', s, h1, h2, h3, h4⟩ :=
    template_file_text hf htr hr hf' hne he (.func hfn ht) hq hv hfl hcn hc hp own hfo hw hsh
  obtain ⟨inv', htn, hident⟩ := imports_after hf htr hi hr hf' hne
  obtain ⟨s', hs, hiff⟩ := text_means_iff env.isPrint (decls := decls) inv' htn hm hv' hwn hident
  rw [h4] at hs
  cases hs
  refine ⟨d, w', s, h1, h2, h3, ?_⟩
  rw [text_means_in_iff env.isPrint inv' htn hm hv' hwn hident h4, hiff]

theorem NamesAvoid.mono {h : Heap} {f : GoFile} {D D' : List GoString} (ha : NamesAvoid h f D) (hs : ∀ n ∈ D', n ∈ D) :
    NamesAvoid h f D' :=
  ⟨fun p hp hm => ha.imported p hp (hs _ hm), fun pk hm => (ha.mentioned pk hm).imp (fun h n hn => h n (hs _ hn)) id⟩

theorem wellNamedArgs_name : ∀ {l : List ArgType}, wellNamedArgs l = true → ∀ n ∈ l.map (·.name), n = [] ∨ isIdent n = true
  | [], _, _, hn => by simp at hn
  | ⟨m, t⟩ :: l, h, n, hn => by
    simp only [wellNamedArgs, Bool.and_eq_true, Bool.or_eq_true, beq_iff_eq] at h
    rcases List.mem_cons.1 hn with rfl | hn
    · exact h.1.1
    · exact wellNamedArgs_name h.2 n hn

theorem Intends.locals_ident {sc : FileScope} {h : Heap} {e : FileElem} {M : DeclMeaning} (hm : Intends sc h e M) {fp : Ptr}
    {fn : FuncSpec} (he : e = .func fp) (hfn : h.funcs fp = some fn) :
    fn.signature.valid = true ∧ ∀ n ∈ fn.locals, isIdent n = true := by
  cases hm with
  | func h1 h2 h3 h4 h5 h6 =>
    cases he
    rw [hfn] at h1
    cases h1
    refine ⟨h3, fun n hn => ?_⟩
    rw [FuncSpec.locals, List.mem_filter, decide_eq_true_eq] at hn
    obtain ⟨hn, hne, -⟩ := hn
    rw [List.mem_append, List.mem_append] at hn
    have hw : wellNamedArgs fn.signature.args = true ∧ wellNamedArgs fn.signature.results = true := by
      rw [← Bool.and_eq_true]
      generalize fn.signature = sig at h4 ⊢
      cases sig
      exact h4
    rcases hn with (hn | hn) | hn
    · cases hr : fn.receiver with
      | none => simp [hr] at hn
      | some r =>
        simp only [hr, Option.map_some, Option.toList_some, List.mem_singleton] at hn
        subst hn
        exact (h6 r hr).1.resolve_left hne
    · exact (wellNamedArgs_name hw.1 n hn).resolve_left hne
    · exact (wellNamedArgs_name hw.2 n hn).resolve_left hne
  | _ => cases he

/-- C72 for whole files, with conditions on the input: under the conditions of C67, if moreover no package that the file
mentions has the name of a receiver, parameter or result of its functions (also not followed by a number), then each function
spec is written as a function that declares its names, and every reference in a line of its code that is visible in the package
refers in the body of that function to what it stands for, if the function has no receiver, parameter or result that is called
like something that the reference is written with and that has no qualifier. What is missing from the full property: see
`C72_full_fails`. -/
theorem C72_file_partial {realName : GoString → GoString} {env : Env} {fuel : Nat} {p : Ptr} {h h' : Heap} {f f' : GoFile}
    {text : GoString} {Ms : List DeclMeaning} (others : List Declared)
    (hf : h.files p = some f) (hf' : h'.files p = some f') (hne : [] ∉ f'.imports.importedPaths)
    (ht : TruthfulInput realName h f) (hi : NameableInput h f) (hp : isIdent f.packageName = true) (hy : Tidy h f)
    (hm : List.Forall₂ (Intends (packageScope f.imports.pkgPath (Declared.names (others ++ f.declared h))) h) f.elements Ms)
    (hr : renderFile env fuel p h = (.ok text, h')) (hc : ∀ e ∈ f.elements, CodeReads env h' e)
    (hid : ∀ n ∈ Declared.names others, isIdent n = true)
    (hl1 : (others ++ f.declared h).Nodup) (hl2 : .name (b! "init") ∉ f.declared h)
    (ha : NamesAvoid h f (Declared.names (others ++ f.declared h) ++ predeclaredNames ++ [b! "init"] ++ f.locals h)) :
    ∃ src, parseGoFile text = some src ∧ src.LegalNames others realName ∧
      src.meaning f.imports.pkgPath (Declared.names (others ++ f.declared h)) realName = some Ms ∧
      ∀ (k : Nat) fp fn, f.elements[k]? = some (.func fp) → h.funcs fp = some fn →
        ∃ hd body, src.decls[k]? = some (.func hd body) ∧ hd.locals = fn.locals ∧
        ∀ fmt q (l : List Arg) (n : Nat) a ref, .line fmt q ∈ fn.code → h.args q = some l → l[n]? = some a → Denotes h a ref →
          ref.valid → ref.wellNamed = true → (∀ o text, a ≠ .goObject o text) →
          (packageScope f.imports.pkgPath (Declared.names (others ++ f.declared h))).Visible ref →
          (∀ n ∈ ref.bareNames f.imports.pkgPath, n ∉ fn.locals) →
          ∃ l' a' s, h'.args q = some l' ∧ l'[n]? = some a' ∧ a'.shown env.isPrint h' = .str s ∧
            (src.scope f.imports.pkgPath (Declared.names (others ++ f.declared h)) realName).MeansIn hd.locals s ref := by
  obtain ⟨src, h1, -, h3, h4, -, h5⟩ := C67_file_partial others hf hf' hne ht hi hp hy hm hr hc hid hl1 hl2
    (ha.mono fun n hn => List.mem_append_left _ hn)
  refine ⟨src, h1, h3, h4, fun k fp fn hk hfn => ?_⟩
  obtain ⟨g, g', k1, k2, k3, k4, k5⟩ := qualifyFile_settled (qualifyFile_of_renderFile hr)
  rw [hf] at k1
  rw [hf'] at k2
  obtain rfl := Option.some.inj k1
  obtain rfl := Option.some.inj k2
  have hn : NoCopyImported h f'.imports := .inr hne
  obtain ⟨inv', htn, hident⟩ := imports_after hf ht hi hr hf' hne
  have r : Readable f'.imports realName := ⟨inv', htn, (k5.ident hi.state hn.get).names⟩
  have hown : f'.imports.pkgPath = f.imports.pkgPath := k5.ext.own
  obtain ⟨ds, hds, -⟩ := elems_declare (decls := Declared.names (others ++ f.declared h)) r k5 (by rw [hown]; exact hm) hc
    fun e hm pk hw => (k4 e (by rw [k3]; exact hm)).written hw
  have hparse := C55_written_file hn hf hi hr hf' hp hds
  rw [h1] at hparse
  obtain rfl := Option.some.inj hparse
  have hmem : FileElem.func fp ∈ f.elements := List.mem_of_getElem? hk
  -- the names of all functions
  have hfun : ∀ fp fn, FileElem.func fp ∈ f.elements → h.funcs fp = some fn →
      fn.signature.valid = true ∧ ∀ n ∈ fn.locals, isIdent n = true := fun fp fn hin hfn => by
    obtain ⟨M, -, h2⟩ := forall₂_mem_left hm hin
    exact h2.locals_ident rfl hfn
  obtain ⟨fn', hfn', hloc⟩ := locals_later k5 hfn (hfun fp fn hmem hfn).1
  have hat : ∃ d, ds[k]? = some d ∧ Declares env h' (.func fp) d := by
    have hall := List.forall₂_iff_get.1 hds
    obtain ⟨hlt, hget⟩ := List.getElem?_eq_some_iff.1 hk
    exact ⟨ds[k]'(hall.1 ▸ hlt), List.getElem?_eq_getElem (hall.1 ▸ hlt), hget ▸ hall.2 k hlt (hall.1 ▸ hlt)⟩
  obtain ⟨d, hd1, hd2⟩ := hat
  have : ∃ hd body, d = .func hd body ∧ hd.locals = fn.locals := by
    cases hd2 with
    | func m1 =>
      rw [hfn'] at m1
      cases m1
      exact ⟨_, _, rfl, (locals_of_spec _).trans hloc⟩
  obtain ⟨hd, body, rfl, hlocals⟩ := this
  refine ⟨hd, body, hd1, hlocals, fun fmt q l n a ref hl hq hn' hde hv hw hg hvis hbare => ?_⟩
  obtain ⟨l', a', s, g1, g2, g3, g4⟩ := h5 _ hmem q l n a ref (.func hfn hl) hq hn' hde hv hw hg hvis
  refine ⟨l', a', s, g1, g2, g3, ?_⟩
  rw [← hown, scope_syn] at g4
  obtain ⟨l'', a'', e1, e2, e3⟩ := C72_iff_partial (decls := Declared.names (others ++ f.declared h)) hf ht hi hr hf' hne hmem hfn
    hl hq hn' hde hv hw hg
  obtain ⟨l3, a3, e4, e5, e6⟩ := C66_file_iff_partial (decls := Declared.names (others ++ f.declared h)) hf ht hi hr hf' hne hmem
    (.func hfn hl) hq hn' hde hv hw hg
  rw [g1] at e1 e4
  cases e1; cases e4
  rw [g2] at e2 e5
  cases e2; cases e5
  obtain ⟨hst, hvi⟩ := e6.1 ⟨s, g3, g4⟩
  obtain ⟨history, hh, -⟩ := ht.history
  have inv : Inv f.imports := by rw [hh]; exact inv_after history
  have hD : ∀ n ∈ f.locals h, isIdent n = true := by
    intro n hn
    obtain ⟨e, m1, m2⟩ := List.mem_flatMap.1 hn
    cases e with
    | func fp =>
      dsimp only at m2
      cases hx : h.funcs fp with
      | none => simp [hx] at m2
      | some fn =>
        rw [hx] at m2
        exact (hfun fp fn m1 hx).2 n m2
    | _ => simp at m2
  have hav := (ha.mono (D' := f.locals h) fun n hn => List.mem_append_right _ hn).after hD inv hn k5
  have hsub : ∀ n ∈ fn.locals, n ∈ f.locals h := fun n hn => List.mem_flatMap.2 ⟨_, hmem, by simpa [hfn] using hn⟩
  have hqual : ∀ pk : Package, pk ∈ ref.mentions → pk.importPath ≠ f'.imports.pkgPath →
      f'.imports.qualifierOf pk.importPath ∉ fn.locals := by
    intro pk hpk hne' hin
    obtain ⟨-, -, -, -, hnames, -⟩ := C33_file_partial hf ⟨_, _, hh⟩ hr hf' hmem (.func hfn hl) hq hn' hde hv
    rcases hnames pk hpk with hx | hx
    · exact hne' hx
    · exact hav _ ((mem_importPaths _ _).2 hx) (hsub _ hin)
  have hsym : ∀ x ∈ ref.symbols, (x.package ≠ ⟨[], []⟩ → x.package ∈ ref.mentions) → x.headIn f'.imports ∉ fn.locals := by
    intro x hx hxm
    rw [Symbol.headIn]
    split
    · next hb =>
      refine hbare _ (List.mem_append_left _ (List.mem_map.2 ⟨x, List.mem_filter.2 ⟨hx, ?_⟩, rfl⟩))
      rw [hown] at hb
      simpa using hb
    · next hb =>
      simp only [not_or] at hb
      exact hqual _ (hxm hb.1) hb.2
  obtain ⟨s', t1, t2⟩ := e3.2 ⟨hst, hvi, fun n hn => by
    cases ref with
    | package pk =>
      rw [Reference.headsIn, List.mem_singleton] at hn
      subst hn
      refine hqual pk (by simp [Reference.mentions]) ?_
      rw [hown]
      exact hvis
    | symbol x =>
      rw [Reference.headsIn, List.mem_singleton] at hn
      subst hn
      exact hsym x (by simp [Reference.symbols]) fun hb => by simp [Reference.mentions, packagesOf, hb]
    | method m =>
      rw [Reference.headsIn, List.mem_singleton] at hn
      subst hn
      exact hsym m.type (by simp [Reference.symbols]) fun hb => by simp [Reference.mentions, packagesOf, hb]
    | type t =>
      rw [Reference.headsIn, List.mem_append, List.mem_map, List.mem_map] at hn
      rcases hn with ⟨x, hx, rfl⟩ | ⟨b, hb, rfl⟩
      · exact hsym x hx fun hb => by
          rw [Reference.mentions, packagesOf, List.mem_filter]
          exact ⟨List.mem_map.2 ⟨x, hx, rfl⟩, by simpa using hb⟩
      · exact hbare _ (List.mem_append_right _ (List.mem_map.2 ⟨b, hb, rfl⟩))⟩
  rw [g3] at t1
  cases t1
  rw [← hown, scope_syn, hlocals]
  exact t2

/-! ### The full property fails -/

/-- C72 in full, for lines: if what is written for a reference in the code of a function refers in the file to what it stands
for, and nothing that the function declares has the name of a thing in the reference, then it does so in the body of the
function. It is false, see `C72_full_fails`. -/
def C72_full : Prop :=
  ∀ (realName : GoString → GoString) (decls : List GoString) (env : Env) (fuel : Nat) (p : Ptr) (h h' : Heap) (f f' : GoFile)
    (text : GoString) (fp : Ptr) (fn : FuncSpec) (fmt : GoString) (q : Ptr) (l l' : List Arg) (n : Nat) (a a' : Arg)
    (ref : Reference) (s : GoString), h.files p = some f → TruthfulInput realName h f → NameableInput h f →
    renderFile env fuel p h = (.ok text, h') → h'.files p = some f' → [] ∉ f'.imports.importedPaths →
    .func fp ∈ f.elements → h.funcs fp = some fn → .line fmt q ∈ fn.code → h.args q = some l → l[n]? = some a →
    Denotes h a ref → ref.valid → ref.wellNamed = true → h'.args q = some l' → l'[n]? = some a' →
    a'.shown env.isPrint h' = .str s → (f'.imports.scope decls realName).Means s ref →
    (∀ n ∈ ref.bareNames f.imports.pkgPath, n ∉ fn.locals) → (f'.imports.scope decls realName).MeansIn fn.locals s ref

/-- `func F(n int) { q.A(n) }`, with `A` from the package x/q. -/
def exParam (n : GoString) : Heap where
  files p := if p = 0 then some { name := b! "p.go", packageName := b! "p", imports := newImportsFor (b! "x/p")
                                  elements := [.func 1] } else none
  funcs p := if p = 1 then some { name := b! "F", parent := some 0, signature := ⟨[⟨n, .basic .int⟩], [], false⟩
                                  code := [.line (b! "%s(" ++ n ++ b! ")\n") 2] } else none
  args p := if p = 2 then some [.symbol ⟨⟨b! "x/q", b! "q"⟩, b! "A"⟩] else none

/-- The parameter has the name of the package. -/
def exHidden : Heap := exParam (b! "q")

theorem exHidden_text : (renderFile exEnv 3 0 exHidden).1 =
    .ok (b! "package p\n\nimport \"x/q\"\n\nfunc F(q int) {\nq.A(q)\n}\n") := by decide +kernel

theorem exParam_mentioned {n : GoString} {pk : Package} (hm : Mentioned (exParam n) pk) :
    pk = ⟨b! "x/q", b! "q"⟩ ∨ pk = ⟨b! "x/p", b! "p"⟩ := by
  cases hm with
  | file h =>
    simp only [exParam] at h
    split at h
    · cases h; decide
    · simp at h
  | func h h2 =>
    simp only [exParam] at h
    split at h
    · cases h; revert h2; simp [Signature.symbols, symbolsArgs, TypeName.symbols]
    · simp at h
  | arg h h2 h3 =>
    simp only [exParam] at h
    split at h
    · cases h
      rw [List.mem_singleton] at h2
      subst h2
      exact .inl (List.mem_singleton.1 h3)
    · simp at h
  | value h => simp [exParam] at h
  | type h => simp [exParam] at h
  | field h => simp [exParam] at h
  | embed h => simp [exParam] at h
  | method h => simp [exParam] at h
  | templ h => simp [exParam] at h

/-- In the function of the example, `q` is the parameter and not the package. -/
theorem C72_full_fails : ¬ C72_full := by
  intro hfull
  let f : GoFile := { name := b! "p.go", packageName := b! "p", imports := newImportsFor (b! "x/p"), elements := [.func 1] }
  obtain ⟨f', hf'⟩ : ∃ f', (renderFile exEnv 3 0 exHidden).2.files 0 = some f' := ⟨_, rfl⟩
  have hp : f'.imports.importSpecs = [⟨[], b! "x/q"⟩] ∧ f'.imports.pkgPath = b! "x/p" := by
    have : ((renderFile exEnv 3 0 exHidden).2.files 0).map (fun f => (f.imports.importSpecs, f.imports.pkgPath)) =
      some ([⟨[], b! "x/q"⟩], b! "x/p") := by decide +kernel
    rw [hf'] at this
    simpa using this
  have hsc : f'.imports.scope [] exRealName = ⟨b! "x/p", [], [⟨[], b! "x/q"⟩], exRealName⟩ := by
    rw [Imports.scope, hp.1, hp.2]
  have := hfull exRealName [] exEnv 3 0 exHidden (renderFile exEnv 3 0 exHidden).2 f f' _ 1 _ (b! "%s(q)\n") 2
    [.symbol ⟨⟨b! "x/q", b! "q"⟩, b! "A"⟩] [.symbol ⟨⟨b! "x/q", b! "q"⟩, b! "A"⟩] 0 _ (.symbol ⟨⟨b! "x/q", b! "q"⟩, b! "A"⟩)
    (.symbol ⟨⟨b! "x/q", b! "q"⟩, b! "A"⟩) (b! "q.A") rfl
    ⟨⟨[], rfl, by simp⟩, fun pk hm => by rcases exParam_mentioned hm with rfl | rfl <;> decide⟩
    ⟨⟨[], rfl, by simp⟩, fun pk hm => by rcases exParam_mentioned hm with rfl | rfl <;> decide⟩
    (by rw [← exHidden_text]) hf' (by rw [Imports.importedPaths, hp.1]; decide) (List.mem_singleton.2 rfl) rfl
    (List.mem_singleton.2 rfl) rfl rfl (.symbol _) trivial (by decide) (by rfl) rfl rfl
    (by rw [hsc]; exact ⟨.declared (b! "x/q") (b! "A"), rfl, rfl⟩) (by decide)
  rw [hsc] at this
  obtain ⟨e, -, h2⟩ := this
  revert h2
  rw [show FileScope.readIn _ _ _ = none from rfl]
  simp

/-! ### An example -/

theorem exParam_text : (renderFile exEnv 3 0 (exParam (b! "r"))).1 =
    .ok (b! "package p\n\nimport \"x/q\"\n\nfunc F(r int) {\nq.A(r)\n}\n") := by decide +kernel

/-- With a parameter `r`, the function that is written declares `r`, and `q.A` is what it is meant to be in its body. -/
example : ∃ src hd body l' a' s,
    parseGoFile (b! "package p\n\nimport \"x/q\"\n\nfunc F(r int) {\nq.A(r)\n}\n") = some src ∧
    src.decls[0]? = some (.func hd body) ∧ hd.locals = [b! "r"] ∧
    (renderFile exEnv 3 0 (exParam (b! "r"))).2.args 2 = some l' ∧ l'[0]? = some a' ∧
    a'.shown exEnv.isPrint (renderFile exEnv 3 0 (exParam (b! "r"))).2 = .str s ∧
    (src.scope (b! "x/p") [b! "F"] exRealName).MeansIn hd.locals s (.symbol ⟨⟨b! "x/q", b! "q"⟩, b! "A"⟩) := by
  let f : GoFile := { name := b! "p.go", packageName := b! "p", imports := newImportsFor (b! "x/p"), elements := [.func 1] }
  let fn : FuncSpec := { name := b! "F", parent := some 0, signature := ⟨[⟨b! "r", .basic .int⟩], [], false⟩
                         code := [.line (b! "%s(r)\n") 2] }
  obtain ⟨f', hf'⟩ : ∃ f', (renderFile exEnv 3 0 (exParam (b! "r"))).2.files 0 = some f' := ⟨_, rfl⟩
  have hp : f'.imports.importSpecs = [⟨[], b! "x/q"⟩] := by
    have : ((renderFile exEnv 3 0 (exParam (b! "r"))).2.files 0).map (fun f => f.imports.importSpecs) =
      some [⟨[], b! "x/q"⟩] := by decide +kernel
    rw [hf'] at this
    simpa using this
  have hy : Tidy (exParam (b! "r")) f := by
    refine ⟨fun e he r ts _ h1 _ => by simp [exParam] at h1, fun e he r ts _ h1 => by simp [exParam] at h1, fun e he l hl => ?_⟩
    cases hl with
    | init h1 => simp [exParam] at h1
    | code h1 h2 h3 =>
      simp only [exParam] at h3
      split at h3
      · cases h3
        intro a ha m hm
        rw [List.mem_singleton] at ha
        subst ha
        cases hm
      · cases h3
  have hc : ∀ e ∈ f.elements, CodeReads exEnv (renderFile exEnv 3 0 (exParam (b! "r"))).2 e := by
    intro e he
    rw [List.mem_singleton.1 he]
    refine .func (f := fn) (code := b! "q.A(r)\n") rfl (by decide +kernel)
      (.lines (a := b! "q.A(r)") (ts := [.ident (b! "q"), .dot, .ident (b! "A"), .lparen, .ident (b! "r"), .rparen])
        (by decide +kernel) ?_)
    exact .tok rfl rfl rfl (.tok rfl rfl rfl (.tok rfl rfl rfl (.group (o := .lparen) (c := .rparen)
      (a := [.ident (b! "r")]) rfl (.tok rfl rfl rfl .nil) (.tok rfl rfl rfl .nil))))
  obtain ⟨src, h1, -, -, h3⟩ := C72_file_partial (realName := exRealName) (fuel := 3) (env := exEnv) (p := 0)
    (h := exParam (b! "r")) (f := f) (f' := f') [] rfl hf' (by rw [Imports.importedPaths, hp]; decide)
    ⟨⟨[], rfl, by simp⟩, fun pk hm => by rcases exParam_mentioned hm with rfl | rfl <;> decide⟩
    ⟨⟨[], rfl, by simp⟩, fun pk hm => by rcases exParam_mentioned hm with rfl | rfl <;> decide⟩ (by decide) hy
    (.cons (.func (f := fn) rfl (by decide) rfl rfl rfl (by simp [fn]) ⟨by decide, by decide, by decide, by decide⟩) .nil)
    (by rw [← exParam_text]) hc (by decide) (by decide) (by decide)
    ⟨by decide, fun pk hm => by
      rcases exParam_mentioned hm with rfl | rfl
      · exact .inl (candidate_head (b := 113) (by decide))
      · exact .inr (.inr (.inl rfl))⟩
  obtain ⟨hd, body, k1, k2, k3⟩ := h3 0 1 fn rfl rfl
  obtain ⟨l', a', s, m1, m2, m3, m4⟩ := k3 (b! "%s(r)\n") 2 _ 0 _ _ (List.mem_singleton.2 rfl) rfl rfl (.symbol _) trivial
    (by decide) (by simp) (reaches_other (by decide) (by decide)) (by decide)
  exact ⟨src, hd, body, l', a', s, h1, k1, k2, m1, m2, m3, m4⟩

end Gopoet
