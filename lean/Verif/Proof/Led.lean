import Verif.Proof.Synced
import Verif.Proof.VisitedLemmas
/-! A run of the qualification pass that follows another one: all that it imports has been imported there, under the same name. -/

namespace Gopoet
open Imports

/-- The package is the own one, or imported. -/
def Bound (i : Imports) (pk : Package) : Prop := pk.importPath = i.pkgPath ∨ i.importsByPath.get pk.importPath ≠ none

theorem Bound.ext {i j : Imports} (h : Ext i j) {pk : Package} (hb : Bound i pk) : Bound j pk :=
  hb.imp (fun h1 => h1.trans h.own.symm) h.imported

theorem PkgKnown.bound {i : Imports} {pk : Package} (h : PkgKnown i pk) (hn : pk ≠ ⟨[], []⟩) : Bound i pk :=
  h.resolve_left hn

/-- In `j`, the package gets the name that it has in `F`: it has been imported already, or has its own name in `F`. -/
def Fine (F j : Imports) (pk : Package) : Prop := Bound j pk ∨
  ∀ d, F.importsByPath.get pk.importPath = some d → d = ⟨baseName pk, decide (baseName pk ≠ pk.name)⟩

theorem Fine.ext {F i j : Imports} (h : Ext i j) {pk : Package} (hb : Fine F i pk) : Fine F j pk := hb.imp_left (.ext h)

theorem Kn.fine {F j : Imports} (h0 : F.importsByPath.get [] = none) {pk : Package} (h : Kn j pk) : Fine F j pk := by
  have empty : pk.importPath = [] → Fine F j pk := fun h => .inr fun d hd => by rw [h, h0] at hd; cases hd
  rcases h with h | h | h
  · exact empty h
  · exact empty (by rw [h])
  · exact .inl h

/-- Packages that are imported in `F`, under their own names, lead to the same imports. -/
theorem Evolves.leads {P : Package → Prop} {F j j' : Imports} (he : Evolves P j j') (hF : Inv F) (hj : Inv j) (hs : Ext j F)
    (hp : ∀ pk, P pk → Bound F pk ∧ Fine F j pk) : Ext j' F := by
  induction he with
  | refl => exact hs
  | step he hst ih =>
    have inv := he.inv hj
    have ext := he.ext
    obtain ⟨pk, q, h1, h2, h3, h4, rfl⟩ := hst
    obtain ⟨h5, h6⟩ := hp pk h1
    have h5 : F.importsByPath.get pk.importPath ≠ none := h5.resolve_left fun h => h2 (h.trans ih.own)
    obtain ⟨d, hd⟩ := Option.ne_none_iff_exists'.1 h5
    have hown := (h6.resolve_left fun h => (h.ext ext).elim h2 fun h => h h3) d hd
    subst hown
    obtain rfl : q = baseName pk := by
      refine h4.unique ⟨0, rfl, ?_, fun j hj => absurd hj (Nat.not_lt_zero _)⟩
      rename_i k _
      cases hn : k.pathsByName.get (baseName pk) with
      | none => rfl
      | some p' =>
        obtain ⟨d', h7, h8⟩ := inv.toPath _ _ hn
        have h9 := hF.toName _ _ (ih.keeps _ _ h7)
        have h10 := hF.toName _ _ hd
        rw [h8] at h9
        dsimp only at h10
        rw [h9] at h10
        cases h10
        rw [h3] at h7
        cases h7
    refine ⟨ih.own, fun p d' hd' => ?_⟩
    simp only [Imports.add, GoMap.get_set] at hd'
    split at hd'
    · rename_i he
      cases hd'
      rw [he]
      exact hd
    · exact ih.keeps _ _ hd'

/-- `x` registers packages of `P` only, and all of them if it returns. -/
structure IM.Sure {α : Type} (P : Package → Prop) (x : IM α) : Prop where
  runs : Runs P x
  all : ∀ i a i', x i = (.ok a, i') → ∀ pk, P pk → Bound i' pk

theorem IM.Sure.leads {α : Type} {P : Package → Prop} {x : IM α} (hx : IM.Sure P x) {F i j i' : Imports} {a : α}
    (he : x i = (.ok a, i')) (h1 : Ext i' F) (hF : Inv F) (hj : Inv j) (hs : Ext j F) (hp : ∀ pk, P pk → Fine F j pk) :
    Ext (x j).2 F :=
  (hx.runs j).leads hF hj hs fun pk hpk => ⟨(hx.all i a i' he pk hpk).ext h1, hp pk hpk⟩

theorem IM.Sure.bindQ {α β : Type} {P : Package → Prop} {x : IM α} (hx : IM.Sure P x) {f : α → IM β}
    (hf : ∀ a i, (f a i).2 = i) : IM.Sure P (x >>= f) where
  runs := Runs.bind hx.runs fun a i => by rw [hf]; exact .refl _
  all := by
    intro i b k hr
    obtain ⟨a, j, h1, h2⟩ := IM.bind_eq_ok hr
    have := hf a j
    rw [h2] at this
    cases this
    exact hx.all i a _ h1

theorem IM.Sure.of_known {α : Type} {P : Package → Prop} {x : IM α} (h1 : Runs (fun pk => P pk ∧ pk ≠ ⟨[], []⟩) x)
    (h2 : Registers P x) : IM.Sure (fun pk => P pk ∧ pk ≠ ⟨[], []⟩) x :=
  ⟨h1, fun i a i' he pk hpk => ((h2 i a i' he).2 pk hpk.1).bound hpk.2⟩

theorem isBuiltin_of_eq {s : Symbol} (h : s.package = ⟨[], []⟩) : s.isBuiltin := by rw [Symbol.isBuiltin, h]; exact ⟨rfl, rfl⟩

theorem pkgsOf_proper {r l pk} (h : pkgsOf r l pk) : pk ∈ l.map (·.package) ∧ pk ≠ ⟨[], []⟩ := by
  refine ⟨pkgsOf_mem h, ?_⟩
  obtain ⟨_, s, _, h2, h3⟩ := h
  rintro rfl
  exact h2 (isBuiltin_of_eq h3)

theorem proper_ensureImported (s : Symbol) : Runs (fun pk => pk = s.package ∧ pk ≠ ⟨[], []⟩) (ensureImported s) :=
  (runs_qualify s true).mono fun _ h => ⟨h.2.2, fun he => h.2.1 (isBuiltin_of_eq (h.2.2.symm.trans he))⟩

theorem proper_ensureTypeImported (t : TypeName) :
    Runs (fun pk => pk ∈ t.symbols.map (·.package) ∧ pk ≠ ⟨[], []⟩) (ensureTypeImported t) :=
  Runs.bind ((runs_qualifyType true t).mono fun _ h => pkgsOf_proper h) fun _ => Runs.pure _

theorem proper_ensureAllTypesImported (s : Signature) :
    Runs (fun pk => pk ∈ s.symbols.map (·.package) ∧ pk ≠ ⟨[], []⟩) (ensureAllTypesImported s) :=
  Runs.bind ((runs_qualifySignature true s).mono fun _ h => pkgsOf_proper h) fun _ => Runs.pure _

theorem proper_qualifySymOrRef (o : Arg) (s : SymbolOrMethodRef) :
    Runs (fun pk => pk = s.package ∧ pk ≠ ⟨[], []⟩) (qualifySymOrRef o s) := by
  cases s with
  | symbol s => exact Runs.bind (proper_ensureImported _) fun _ => Runs.pure _
  | method m => exact Runs.bind (proper_ensureImported _) fun _ => Runs.ite (Runs.pure _) (Runs.pure _)

theorem sure_registerPackage (p : Package) : IM.Sure (· = p) (registerPackage p) := by
  refine ⟨runs_registerPackage p, fun i a j h => ?_⟩
  rintro pk rfl
  rcases registerPackage_named h with ⟨h, _⟩ | ⟨_, d, h, _⟩
  · exact .inl h
  · exact .inr (by rw [h]; simp)

/-- Arguments that are packages. -/
def Arg.isPackage : Arg → Bool
  | .package _ | .packagePtr _ | .goPackage _ _ => true
  | _ => false

theorem proper_qualifyArg (h : Heap) (a : Arg) (ha : a.isPackage = false) :
    Runs (fun pk => WrittenArg h a pk ∧ pk ≠ ⟨[], []⟩) (qualifyArg h a) := by
  cases a <;> rw [qualifyArg]
  case package | packagePtr | goPackage => simp [Arg.isPackage] at ha
  case symbol | symbolPtr =>
    exact Runs.bind ((proper_ensureImported _).mono fun _ h => ⟨.ref (by constructor) (by simp [h.1, Reference.packages]), h.2⟩) fun _ => Runs.pure _
  case mref | mrefPtr =>
    exact (proper_qualifySymOrRef _ _).mono fun _ h => ⟨.ref (by constructor) (by simp [h.1, Reference.packages, SymbolOrMethodRef.package]), h.2⟩
  case sig => exact Runs.bind ((proper_ensureAllTypesImported _).mono fun _ h => ⟨.sig h.1, h.2⟩) fun _ => Runs.pure _
  case sigPtr => exact Runs.bind ((proper_ensureAllTypesImported _).mono fun _ h => ⟨.sigPtr h.1, h.2⟩) fun _ => Runs.pure _
  case typeName =>
    exact Runs.bind ((proper_ensureTypeImported _).mono fun _ h => ⟨.ref (.typeName _) h.1, h.2⟩) fun _ => Runs.pure _
  case value p =>
    refine Runs.bind_lift fun s hs => (proper_qualifySymOrRef _ _).mono fun pk ⟨hpk, hp0⟩ => ⟨?_, hp0⟩
    obtain ⟨c, h1, h2⟩ := bind_eq_ok hs
    unfold ValueSpec.toSymbol ValueSpec.symbolAt at h2
    split at h2
    · simp at h2
    · rename_i hl
      split at h2
      · simp at h2
      · rename_i f hf
        split at h2
        · simp at h2
        · rename_i n hn
          obtain ⟨pk', h3, h4⟩ := bind_eq_ok h2
          obtain ⟨g, h5, h6⟩ := bind_eq_ok h3
          cases h4
          cases h6
          have hnames : c.names = [n] := by
            rcases hc : c.names with _ | ⟨a, _ | ⟨b, l⟩⟩ <;> simp_all
          exact .ref (.value (deref_eq_ok h1) hnames hf (deref_eq_ok h5)) (by simp [hpk, Reference.packages, SymbolOrMethodRef.package, GoFile.package])
  case typeSpec p =>
    refine Runs.bind_lift fun s hs => (proper_qualifySymOrRef _ _).mono fun pk ⟨hpk, hp0⟩ => ⟨?_, hp0⟩
    obtain ⟨c, h1, h2⟩ := bind_eq_ok hs
    unfold TypeSpec.toSymbol at h2
    split at h2
    · simp at h2
    · rename_i hl
      split at h2
      · simp at h2
      · rename_i f hf
        obtain ⟨pk', h3, h4⟩ := bind_eq_ok h2
        obtain ⟨g, h5, h6⟩ := bind_eq_ok h3
        cases h4
        cases h6
        exact .ref (.typeSpec (deref_eq_ok h1) hl hf (deref_eq_ok h5)) (by simp [hpk, Reference.packages, SymbolOrMethodRef.package, GoFile.package])
  case ifaceMethod p =>
    refine Runs.bind_lift fun s hs => (proper_qualifySymOrRef _ _).mono fun pk ⟨hpk, hp0⟩ => ⟨?_, hp0⟩
    obtain ⟨c, h1, h2⟩ := bind_eq_ok hs
    unfold InterfaceMethod.toMethodRef at h2
    split at h2
    · simp at h2
    · rename_i q hq
      obtain ⟨t, h3, h4⟩ := bind_eq_ok h2
      obtain ⟨sy, h5, h6⟩ := bind_eq_ok h4
      cases h6
      unfold TypeSpec.toSymbol at h5
      split at h5
      · simp at h5
      · rename_i hl
        split at h5
        · simp at h5
        · rename_i f hf
          obtain ⟨pk', h7, h8⟩ := bind_eq_ok h5
          obtain ⟨g, h9, h10⟩ := bind_eq_ok h7
          cases h8
          cases h10
          exact .ref (.ifaceMethod (deref_eq_ok h1) hq (deref_eq_ok h3) hl hf (deref_eq_ok h9))
            (by simp [hpk, Reference.packages, SymbolOrMethodRef.package, GoFile.package])
  case func p =>
    refine Runs.bind_lift fun s hs => (proper_qualifySymOrRef _ _).mono fun pk ⟨hpk, hp0⟩ => ⟨?_, hp0⟩
    obtain ⟨c, h1, h2⟩ := bind_eq_ok hs
    unfold FuncSpec.toSymbol at h2
    split at h2
    · simp at h2
    · rename_i f hf
      obtain ⟨pk', h3, h4⟩ := bind_eq_ok h2
      obtain ⟨g, h5, h6⟩ := bind_eq_ok h3
      cases h6
      cases hr : c.receiver with
      | none =>
        rw [hr] at h4
        cases h4
        exact .ref (.func (deref_eq_ok h1) hr hf (deref_eq_ok h5)) (by simp [hpk, Reference.packages, SymbolOrMethodRef.package, GoFile.package])
      | some r =>
        rw [hr] at h4
        cases h4
        exact .ref (.method (deref_eq_ok h1) hr hf (deref_eq_ok h5)) (by simp [hpk, Reference.packages, SymbolOrMethodRef.package, GoFile.package])
  case goObject =>
    refine Runs.bind_lift fun s hs => (proper_qualifySymOrRef _ _).mono fun pk ⟨hpk, hp0⟩ => ⟨?_, hp0⟩
    cases s with
    | symbol s => exact .ref (.goSymbol hs) (by simp [hpk, Reference.packages, SymbolOrMethodRef.package])
    | method s => exact .ref (.goMethod hs) (by simp [hpk, Reference.packages, SymbolOrMethodRef.package])
  case reflectType =>
    exact Runs.bind_lift fun t ht => Runs.bind ((proper_ensureTypeImported _).mono fun pk hpk => ⟨.ref (.reflectType ht) hpk.1, hpk.2⟩)
      fun _ => Runs.pure _
  case goType =>
    exact Runs.bind_lift fun t ht => Runs.bind ((proper_ensureTypeImported _).mono fun pk hpk => ⟨.ref (.goType ht) hpk.1, hpk.2⟩)
      fun _ => Runs.pure _
  all_goals first | exact Runs.pure _ | (intros; simp_all)


theorem sure_qualifyArg (h : Heap) (a : Arg) : ∃ P, IM.Sure P (qualifyArg h a) ∧ ∀ pk, P pk → WrittenArg h a pk := by
  cases ha : a.isPackage with
  | false =>
    exact ⟨_, .of_known (proper_qualifyArg h a ha) ((registers_qualifyArg h a).mono fun _ => .inl), fun _ => And.left⟩
  | true =>
    cases a <;> simp only [Arg.isPackage, Bool.false_eq_true] at ha
    case package p =>
      refine ⟨_, (sure_registerPackage p).bindQ fun a i => ?_, fun pk hpk => .ref (by constructor) (by simp [hpk, Reference.packages])⟩
      split <;> rfl
    case packagePtr p =>
      refine ⟨_, (sure_registerPackage p).bindQ fun a i => ?_, fun pk hpk => .ref (by constructor) (by simp [hpk, Reference.packages])⟩
      split <;> rfl
    case goPackage g n =>
      rw [qualifyArg]
      refine ⟨(· = ⟨g.path, g.name⟩), ?_, fun pk hpk => .ref (.goPackage _ _) (by simp [hpk, Reference.packages])⟩
      exact (sure_registerPackage _).bindQ fun a i => rfl

/-! ### Template data -/

/-- `x` registers packages of the list only. -/
def Touches {α : Type} (l : List Package) (x : IM α) : Prop := Runs (· ∈ l) x

namespace Touches
variable {α β : Type}

theorem pure {l} (a : α) : Touches l (pure a : IM α) := Runs.pure a
theorem panic {l} : Touches l (IM.panic : IM α) := Runs.panic
theorem ite {l} {c : Prop} [Decidable c] {x y : IM α} (hx : Touches l x) (hy : Touches l y) : Touches l (if c then x else y) :=
  Runs.ite hx hy
theorem bindQ {l} {x : IM α} {f : α → IM β} (hx : Touches l x) (hf : ∀ a, Touches [] (f a)) : Touches l (x >>= f) :=
  Runs.bind hx fun a => (hf a).mono (by simp)
theorem bind {l m} {x : IM α} {f : α → IM β} (hx : Touches l x) (hf : ∀ a, Touches m (f a)) : Touches (l ++ m) (x >>= f) :=
  Runs.bind (hx.mono fun _ h => List.mem_append_left _ h) fun a => (hf a).mono fun _ h => List.mem_append_right _ h
theorem bind_lift {l} {x : Outcome α} {f : α → IM β} (hf : ∀ a, x = .ok a → Touches l (f a)) : Touches l (IM.lift x >>= f) :=
  Runs.bind_lift hf

end Touches

theorem mem_packagesOf {l : List Symbol} {pk : Package} (h : pkgsOf true l pk) : pk ∈ packagesOf l := by
  simpa [packagesOf] using pkgsOf_proper h

theorem touches_registerPackage (p : Package) : Touches [p] (registerPackage p) := (runs_registerPackage p).mono (by simp)
theorem touches_qualify (s : Symbol) : Touches (packagesOf [s]) (qualify s true) :=
  (runs_qualify s true).mono fun _ h => mem_packagesOf ⟨rfl, s, List.mem_singleton.2 rfl, h.2.1, h.2.2.symm⟩
theorem touches_qualifyType (t : TypeName) : Touches (packagesOf t.symbols) (qualifyType true t) :=
  (runs_qualifyType true t).mono fun _ => mem_packagesOf
theorem touches_qualifySignature (s : Signature) : Touches (packagesOf s.symbols) (qualifySignature true s) :=
  (runs_qualifySignature true s).mono fun _ => mem_packagesOf
theorem touches_qualifyConverted (acc : Accepts) (o : TVal) (t : Outcome TypeName) :
    Touches (convertedMentions t) (qualifyConverted acc o t) :=
  .bind_lift fun a ht => by
    subst ht
    exact .bindQ (touches_qualifyType a) fun _ => .ite (.pure _) (.pure _)
theorem touches_qualifyObject (acc : Accepts) (o : TVal) (s : SymbolOrMethodRef) :
    Touches (objectMentions (.ok s)) (qualifyObject acc o s) := by
  cases s <;> exact .bindQ (touches_qualify _) fun _ => .ite (.pure _) (.pure _)

mutual
theorem touches_qualifyData (h : Heap) : ∀ (addr : Bool) (v : TVal), 
    Touches (v.mentions h) (qualifyData h addr v)
  | addr, .iface acc v => by
    by_cases hc : v.isConv = true
    · cases v <;> simp only [TVal.isConv, Bool.false_eq_true] at hc
      case typeName t =>
        rw [qualifyData, TVal.mentions]; exact touches_qualifyConverted _ _ (.ok t)
      case reflectType t =>
        rw [qualifyData, TVal.mentions]; exact touches_qualifyConverted _ _ _
      case goType t =>
        rw [qualifyData, TVal.mentions]; exact touches_qualifyConverted _ _ _
      case goObject o =>
        rw [qualifyData, TVal.mentions]
        exact .bind_lift fun a ha => by rw [ha]; exact touches_qualifyObject _ _ _
      case goPackage g =>
        rw [qualifyData, TVal.mentions]
        exact .bind_lift fun a ha => by
          cases ha
          exact .bindQ (touches_registerPackage _) fun _ => .ite (.pure _) (.pure _)
    · have hc : v.isConv = false := by simpa using hc
      rw [qualifyData_iface _ _ _ hc, mentions_iface _ _ hc]
      exact .bindQ (touches_qualifyData h false v) fun r => .pure _
  | addr, .package p => by
    rw [qualifyData, TVal.mentions]
    exact .bindQ (touches_registerPackage _) fun _ => .ite (.pure _) (.pure _)
  | addr, .symbol s => by
    rw [qualifyData, TVal.mentions]
    exact .bindQ (touches_qualify s) fun _ => .pure _
  | addr, .mref m => by
    rw [qualifyData, TVal.mentions]
    exact .bindQ (touches_qualify _) fun _ => .pure _
  | addr, .signature s => by
    rw [qualifyData, TVal.mentions]
    exact .bindQ (touches_qualifySignature s) fun _ => .pure _
  | addr, .spec r => by
    rw [qualifyData, TVal.mentions, SpecRef.package]
    refine .bind_lift fun q hq => ?_
    rw [hq]
    cases q with
    | none => exact .pure _
    | some p =>
      refine .bind_lift fun f hf => ?_
      obtain hf := deref_eq_ok hf
      dsimp only
      rw [hf]
      exact .bindQ (touches_registerPackage _) fun _ => .ite (.pure _) (.pure _)
  | addr, .specCopy _ _ => by
    rw [qualifyData, TVal.mentions]
    exact .bindQ (touches_registerPackage _) fun _ => .ite (.pure _) (.pure _)
  | addr, .embed e => by
    rw [qualifyData, TVal.mentions]
    exact .bindQ (.bindQ (touches_qualify _) fun _ => .pure _) fun _ => .pure _
  | addr, .method m => by
    rw [qualifyData, TVal.mentions]
    exact .bindQ (.bindQ (touches_qualifySignature _) fun _ => .pure _) fun _ => .pure _
  | addr, .ptr v => by
    rw [qualifyData, TVal.mentions]
    exact .bindQ (touches_qualifyData h true v) fun _ => .pure _
  | addr, .struct fs => by
    rw [qualifyData, TVal.mentions]
    exact .bindQ (touches_qualifyDataFields h addr false false fs) fun _ => .pure _
  | addr, .array vs => by
    rw [qualifyData, TVal.mentions]
    exact .bindQ (touches_qualifyDataElems h addr addr false vs) fun _ => .pure _
  | addr, .slice vs => by
    rw [qualifyData, TVal.mentions]
    exact .bindQ (touches_qualifyDataElems h true true false vs) fun _ => .pure _
  | addr, .map es => by
    rw [qualifyData, TVal.mentions]
    exact .bindQ (touches_qualifyDataEntries h es) fun _ =>
      .ite (.pure _) (.pure _)
  | addr, .scalar _ => by
    rw [qualifyData, TVal.mentions]
    · exact .pure _
    all_goals simp
  | addr, .imports => by
    rw [qualifyData, TVal.mentions]
    · exact .pure _
    all_goals simp
  | addr, .typeName _ => by
    rw [qualifyData, TVal.mentions]
    · exact .pure _
    all_goals simp
  | addr, .reflectType _ => by
    rw [qualifyData, TVal.mentions]
    · exact .pure _
    all_goals simp
  | addr, .goType _ => by
    rw [qualifyData, TVal.mentions]
    · exact .pure _
    all_goals simp
  | addr, .goObject _ => by
    rw [qualifyData, TVal.mentions]
    · exact .pure _
    all_goals simp
  | addr, .goPackage _ => by
    rw [qualifyData, TVal.mentions]
    · exact .pure _
    all_goals simp
theorem touches_qualifyDataFields (h : Heap) (addr : Bool) : ∀ (changed hidden : Bool) (fs : List (Bool × TVal)),
    Touches (mentionsFields h fs) (qualifyDataFields h addr changed hidden fs)
  | changed, hidden, [] => by
    rw [qualifyDataFields]
    exact .pure _
  | changed, hidden, (e, v) :: fs => by
    rw [qualifyDataFields, mentionsFields]
    refine .ite .panic (.bind (touches_qualifyData h addr v) fun r => ?_)
    exact .ite .panic (.bindQ (touches_qualifyDataFields h addr _ _ fs) fun _ => .pure _)
theorem touches_qualifyDataElems (h : Heap) (addr sl : Bool) : ∀ (changed : Bool) (vs : List TVal),
    Touches (mentionsElems h vs) (qualifyDataElems h addr sl changed vs)
  | changed, [] => by
    rw [qualifyDataElems]
    exact .pure _
  | changed, v :: vs => by
    rw [qualifyDataElems, mentionsElems]
    refine .bind (touches_qualifyData h addr v) fun r => ?_
    exact .ite .panic (.bindQ (touches_qualifyDataElems h addr sl _ vs) fun _ => .pure _)
theorem touches_qualifyDataEntries (h : Heap) : ∀ (es : List (TVal × TVal)),
    Touches (mentionsEntries h es) (qualifyDataEntries h es)
  | [] => by
    rw [qualifyDataEntries]
    exact .pure _
  | (a, v) :: es => by
    rw [qualifyDataEntries, mentionsEntries]
    refine .bind (touches_qualifyData h false a) fun _ => ?_
    refine .bind (touches_qualifyData h false v) fun _ => ?_
    exact .ite .panic (.bindQ (touches_qualifyDataEntries h es) fun _ => .pure _)
end

theorem touches_qualifyTemplateData (h : Heap) (v : TVal) :
    Touches ((TVal.iface acceptsAll v).mentions h) (qualifyTemplateData h v) := by
  refine .bindQ (touches_qualifyData h true _) fun r => ?_
  obtain ⟨r, c⟩ := r
  cases r <;> exact .pure _

theorem sure_qualifyTemplateData (h : Heap) (v : TVal) :
    IM.Sure (· ∈ (TVal.iface acceptsAll v).mentions h) (qualifyTemplateData h v) := by
  refine ⟨touches_qualifyTemplateData h v, fun i a i' he pk hpk => ?_⟩
  obtain rfl := effect_qualifyTemplateData _ _ _ _ _ he
  exact (registerAll_known i _ pk hpk).imp_left fun h1 => h1.trans (after_registerAll i _).ext.own.symm

/-! ### Specs -/

theorem agree_of_ext {i j F : Imports} (h1 : Ext i F) (h2 : Ext j F) : Agree i j := by
  refine ⟨h1.own.symm.trans h2.own, fun p d d' h3 h4 => ?_⟩
  have h5 := h1.keeps _ _ h3
  rw [h2.keeps _ _ h4] at h5
  cases h5
  rfl

theorem IM.Sure.follow {α : Type} {P : Package → Prop} {x : IM α} (hx : IM.Sure P x) (hs : IM.Synced x) {F i j i' : Imports} {a : α}
    (hF : Inv F) (he : x i = (.ok a, i')) (h1 : Ext i' F) (hj : Inv j) (h2 : Ext j F) (hp : ∀ pk, P pk → Fine F j pk) :
    ∃ j', x j = (.ok a, j') ∧ Ext j' F ∧ Inv j' := by
  have h3 := hx.leads he h1 hF hj h2 hp
  have h4 := hs.same i j (by rw [he]; exact agree_of_ext h1 h3)
  rw [he] at h4
  exact ⟨(x j).2, Prod.ext h4 rfl, h3, (hx.runs j).inv hj⟩

/-- A run of `x` that follows another one ends like that one. The packages of `V` are those that it can import. -/
structure QM.Follows (F : Imports) (V : Heap → Package → Prop) (x : QM Unit) : Prop where
  steps : QM.Steps x
  follow : ∀ {h i j h' i'}, x h i = (.ok (), h', i') → Ext i' F → Inv j → Ext j F → (∀ pk, V h pk → Fine F j pk) →
    ∃ j', x h j = (.ok (), h', j') ∧ Ext j' F

section
variable {F : Imports}

/-- What can be imported later. -/
theorem fine_later (h0 : F.importsByPath.get [] = none) {V : Heap → Package → Prop} (ht : FollowsPass V) {h j h1 j1}
    (l : Later h j h1 j1) (hv : ∀ pk, V h pk → Fine F j pk) (pk : Package) (hp : V h1 pk) : Fine F j1 pk :=
  (ht.bwd l hp).elim (Kn.fine h0) fun h2 => (hv pk h2).ext l.ext

theorem QM.Follows.ret (V : Heap → Package → Prop) : QM.Follows F V (QM.ret ()) := by
  refine ⟨QM.Steps.ret _, fun {h i j h' i'} hx h1 h2 h3 _ => ?_⟩
  simp only [QM.ret, Prod.mk.injEq] at hx
  obtain ⟨-, rfl, rfl⟩ := hx
  exact ⟨j, rfl, h3⟩

theorem QM.Follows.forEach (h0 : F.importsByPath.get [] = none) {α : Type} {f : α → QM Unit} {V : α → Heap → Package → Prop}
    (hf : ∀ a, QM.Follows F (V a) (f a)) (hV : ∀ a, FollowsPass (V a)) :
    ∀ l, QM.Follows F (fun h pk => ∃ a ∈ l, V a h pk) (QM.forEach f l)
  | [] => .ret _
  | a :: l => ⟨QM.Steps.forEach (fun a => (hf a).steps) _, fun {h i j h' i'} he h1 h2 h3 hv => by
      rw [QM.forEach] at he ⊢
      obtain ⟨⟨⟩, g1, i1, e1, e2⟩ := QM.bind_eq_ok he
      have ih := QM.Follows.forEach h0 hf hV l
      have x1 := (ih.steps.later e2).ext
      obtain ⟨j1, e3, h4⟩ := (hf a).follow e1 (x1.trans h1) h2 h3 fun pk hp => hv pk ⟨a, by simp, hp⟩
      have l1 := (hf a).steps.later e3
      unfold QM.bind
      rw [e3]
      exact ih.follow e2 h1 (l1.inv h2) h4 (fine_later h0 (.ex hV l) l1 fun pk ⟨b, hb, hp⟩ => hv pk ⟨b, by simp [hb], hp⟩)⟩

theorem follow_argList (hF : Inv F) {h : Heap} : ∀ {l l' : List Arg} {i j i' : Imports},
    qualifyArgList h l i = (.ok (), l', i') → Ext i' F → Inv j → Ext j F →
    (∀ pk, (∃ a ∈ l, WrittenArg h a pk) → Fine F j pk) → ∃ j', qualifyArgList h l j = (.ok (), l', j') ∧ Ext j' F
  | [], l', i, j, i', hx, h1, h2, h3, hv => by
    simp only [qualifyArgList, Prod.mk.injEq] at hx
    obtain ⟨-, rfl, rfl⟩ := hx
    exact ⟨j, rfl, h3⟩
  | a :: l, l', i, j, i', hx, h1, h2, h3, hv => by
    rw [qualifyArgList] at hx ⊢
    rcases ha : qualifyArg h a i with ⟨a' | _ | _, i1⟩ <;> rw [ha] at hx
    · rcases hl : qualifyArgList h l i1 with ⟨o, l1, i2⟩
      simp only [hl, Prod.mk.injEq] at hx
      obtain ⟨rfl, rfl, rfl⟩ := hx
      obtain ⟨P, hs, hP⟩ := sure_qualifyArg h a
      have x1 := (evolves_qualifyArgList h l i1).1.ext
      rw [hl] at x1
      obtain ⟨j1, e1, h4, h5⟩ := hs.follow (synced_qualifyArg h a) hF ha (x1.trans h1) h2 h3 fun pk hp => hv pk ⟨a, by simp, hP pk hp⟩
      have x2 := (hs.runs j).ext
      rw [e1] at x2
      obtain ⟨j2, e2, h6⟩ := follow_argList hF hl h1 h5 h4 fun pk ⟨b, hb, hp⟩ => (hv pk ⟨b, by simp [hb], hp⟩).ext x2
      rw [e1]
      simp only [e2]
      exact ⟨j2, rfl, h6⟩
    · simp at hx
    · simp at hx

theorem followed_codeElem (hF : Inv F) (e : CodeElem) : QM.Follows F (fun h pk => VisitedCodeElem h e pk) e.qualify := by
  refine ⟨steps_codeElem e, fun {h i j h' i'} hx h1 h2 h3 hv => ?_⟩
  cases e with
  | line f p =>
    simp only [CodeElem.qualify] at hx ⊢
    split at hx
    · simp at hx
    · rename_i l hl
      rcases hq : qualifyArgList h l i with ⟨o, l', i1⟩
      rw [hq] at hx
      simp only [Prod.mk.injEq] at hx
      obtain ⟨rfl, rfl, rfl⟩ := hx
      obtain ⟨j', e1, h4⟩ := follow_argList hF hq h1 h2 h3 fun pk ⟨a, ha, hw⟩ => hv pk (.line hl ha hw)
      simp only [e1]
      exact ⟨j', rfl, h4⟩
  | templ p =>
    obtain ⟨t, e1, hx⟩ := QM.bind_read_eq_ok hx
    obtain ⟨d, i2, e2, hx⟩ := QM.bind_lift_eq_ok hx
    simp only [QM.modify, Prod.mk.injEq] at hx
    obtain ⟨-, rfl, rfl⟩ := hx
    obtain ⟨j', e3, h4, -⟩ := (sure_qualifyTemplateData h t.data).follow (synced_qualifyTemplateData _ _) hF e2 h1 h2 h3
      fun pk hp => hv pk (.templ e1 hp)
    refine ⟨j', ?_, h4⟩
    rw [CodeElem.qualify, QM.bind, QM.read_ok e1]
    dsimp only
    rw [QM.bind, QM.lift_ok e3]
    rfl

theorem sure_ensureTypeImported (t : TypeName) :
    IM.Sure (fun pk => pk ∈ t.symbols.map (·.package) ∧ pk ≠ ⟨[], []⟩) (ensureTypeImported t) :=
  .of_known (proper_ensureTypeImported t) (registers_ensureTypeImported t)

theorem sure_ensureAllTypesImported (s : Signature) :
    IM.Sure (fun pk => pk ∈ s.symbols.map (·.package) ∧ pk ≠ ⟨[], []⟩) (ensureAllTypesImported s) :=
  .of_known (proper_ensureAllTypesImported s) (registers_ensureAllTypesImported s)

theorem sure_embedQualify (e : InterfaceEmbed) : IM.Sure (fun pk => pk = e.type.package ∧ pk ≠ ⟨[], []⟩) e.qualify :=
  .of_known (Runs.bind (proper_ensureImported _) fun _ => Runs.pure _) (registers_embedQualify e)

theorem sure_methodQualify (m : InterfaceMethod) :
    IM.Sure (fun pk => pk ∈ m.signature.symbols.map (·.package) ∧ pk ≠ ⟨[], []⟩) m.qualify :=
  .of_known (Runs.bind ((runs_qualifySignature true _).mono fun _ h => pkgsOf_proper h) fun _ => Runs.pure _)
    (registers_methodQualify m)

theorem followed_ifaceElem (hF : Inv F) (e : IfaceElem) : QM.Follows F (fun h pk => WrittenIfaceElem h e pk) e.qualify := by
  refine ⟨steps_ifaceElem e, fun {h i j h' i'} hx h1 h2 h3 hv => ?_⟩
  cases e with
  | embed p =>
    obtain ⟨t, e1, hx⟩ := QM.bind_read_eq_ok hx
    obtain ⟨d, i2, e2, hx⟩ := QM.bind_lift_eq_ok hx
    simp only [QM.modify, Prod.mk.injEq] at hx
    obtain ⟨-, rfl, rfl⟩ := hx
    obtain ⟨j', e3, h4, -⟩ := (sure_embedQualify t).follow (synced_embedQualify _) hF e2 h1 h2 h3
      fun pk hp => hv pk (hp.1 ▸ .embed e1)
    refine ⟨j', ?_, h4⟩
    rw [IfaceElem.qualify, QM.bind_ok (QM.read_ok e1), QM.bind_ok (QM.lift_ok e3)]
    rfl
  | method p =>
    obtain ⟨t, e1, hx⟩ := QM.bind_read_eq_ok hx
    obtain ⟨d, i2, e2, hx⟩ := QM.bind_lift_eq_ok hx
    simp only [QM.modify, Prod.mk.injEq] at hx
    obtain ⟨-, rfl, rfl⟩ := hx
    obtain ⟨j', e3, h4, -⟩ := (sure_methodQualify t).follow (synced_methodQualify _) hF e2 h1 h2 h3
      fun pk hp => hv pk (.method e1 hp.1)
    refine ⟨j', ?_, h4⟩
    rw [IfaceElem.qualify, QM.bind_ok (QM.read_ok e1), QM.bind_ok (QM.lift_ok e3)]
    rfl

theorem followed_field (hF : Inv F) {sub : Ptr → QM Unit} (hs : ∀ p, QM.Follows F (fun h pk => VisitedBody h p pk) (sub p)) (p : Ptr) :
    QM.Follows F (fun h pk => VisitedField h p pk) (qualifyField sub p) := by
  refine ⟨steps_field (fun p => (hs p).steps) p, fun {h i j h' i'} hx h1 h2 h3 hv => ?_⟩
  obtain ⟨f, e1, hx⟩ := QM.bind_read_eq_ok hx
  rw [qualifyField, QM.bind_ok (QM.read_ok e1)]
  cases ht : f.type with
  | nil =>
    simp only [ht, QM.ret, Prod.mk.injEq] at hx
    obtain ⟨-, rfl, rfl⟩ := hx
    exact ⟨j, rfl, h3⟩
  | name t =>
    simp only [ht] at hx
    obtain ⟨d, i2, e2, hx⟩ := QM.bind_lift_eq_ok hx
    simp only [QM.modify, Prod.mk.injEq] at hx
    obtain ⟨-, rfl, rfl⟩ := hx
    obtain ⟨j', e3, h4, -⟩ := (sure_ensureTypeImported t).follow (synced_ensureTypeImported _) hF e2 h1 h2 h3
      fun pk hp => hv pk ⟨f, e1, .inl ⟨t, ht, hp.1⟩⟩
    refine ⟨j', ?_, h4⟩
    dsimp only
    rw [QM.bind_ok (QM.lift_ok e3)]
    rfl
  | spec r =>
    simp only [ht] at hx
    exact (hs r).follow hx h1 h2 h3 fun pk hp => hv pk ⟨f, e1, .inr ⟨r, ht, hp⟩⟩

theorem followed_spec (hF : Inv F) (h0 : F.importsByPath.get [] = none) : ∀ fuel p,
    QM.Follows F (fun h pk => VisitedBody h p pk) (qualifySpec fuel p)
  | 0, _ => ⟨steps_spec _ _, fun hx => by simp [qualifySpec, QM.hang] at hx⟩
  | fuel + 1, p => by
    refine ⟨steps_spec _ _, fun {h i j h' i'} hx h1 h2 h3 hv => ?_⟩
    rw [qualifySpec] at hx
    obtain ⟨ts, e1, hx⟩ := QM.bind_read_eq_ok hx
    obtain ⟨u, i1, e2, hx⟩ := QM.bind_lift_eq_ok hx
    obtain ⟨_, g2, i2, e3, hx⟩ := QM.bind_eq_ok hx
    simp only [QM.modify, Prod.mk.injEq] at e3
    obtain ⟨-, rfl, rfl⟩ := e3
    obtain ⟨_, g3, i3, e4, hx⟩ := QM.bind_eq_ok hx
    have s1 := QM.Follows.forEach h0 (followed_field hF (followed_spec hF h0 fuel)) follows_field ts.structBody
    have s2 := QM.Follows.forEach h0 (followed_ifaceElem hF) follows_ifaceElem ts.interfaceBody
    have hv := fun pk hp => hv pk ((visitedBody_iff e1 pk).2 hp)
    have x2 := (s2.steps.later hx).ext.trans h1
    have x1 := (s1.steps.later e4).ext.trans x2
    obtain ⟨j1, f1, y1, k1⟩ := (sure_ensureTypeImported _).follow (synced_ensureTypeImported _) hF e2 x1 h2 h3
      fun pk hp => hv pk (.inl (.inl hp.1))
    have l1 : Later h j _ j1 := .step (.refl _ _) (.type e1 f1)
    obtain ⟨j2, f2, y2⟩ := s1.follow e4 x2 k1 y1 (fine_later h0 (.ex follows_field _) l1 fun pk hp => hv pk (.inl (.inr hp)))
    have l2 := l1.trans (s1.steps.later f2)
    obtain ⟨j3, f3, y3⟩ := s2.follow hx h1 (l2.inv h2) y2 (fine_later h0 (.ex follows_ifaceElem _) l2 fun pk hp => hv pk (.inr hp))
    refine ⟨j3, ?_, y3⟩
    rw [qualifySpec, QM.bind_ok (QM.read_ok e1), QM.bind_ok (QM.lift_ok f1), QM.bind_ok rfl, QM.bind_ok f2, f3]

theorem followed_code (hF : Inv F) (h0 : F.importsByPath.get [] = none) (cb : CodeBlock) :
    QM.Follows F (fun h pk => ∃ e ∈ cb, VisitedCodeElem h e pk) (qualifyCode cb) :=
  .forEach h0 (followed_codeElem hF) follows_codeElem cb

theorem followed_init (hF : Inv F) (h0 : F.importsByPath.get [] = none) (o : Option Ptr) :
    QM.Follows F (fun h pk => VisitedInit h o pk) (match o with
    | none => QM.ret ()
    | some b => QM.bind (QM.read (·.blocks) b) qualifyCode) := by
  cases o with
  | none => exact .ret _
  | some b =>
    refine ⟨QM.Steps.bind (QM.Steps.read _ _) fun _ => steps_code _, fun {h i j h' i'} hx h1 h2 h3 hv => ?_⟩
    obtain ⟨cb, e1, hx⟩ := QM.bind_read_eq_ok hx
    obtain ⟨j', e2, h4⟩ := (followed_code hF h0 cb).follow hx h1 h2 h3 fun pk hp => hv pk ⟨b, rfl, cb, e1, hp⟩
    exact ⟨j', by dsimp only; rw [QM.bind_ok (QM.read_ok (m := (·.blocks)) e1), e2], h4⟩

theorem followed_value (hF : Inv F) (h0 : F.importsByPath.get [] = none) (fuel : Nat) (p : Ptr) :
    QM.Follows F (fun h pk => VisitedValue h p pk) (qualifyValue fuel p) := by
  refine ⟨steps_value fuel p, fun {h i j h' i'} hx h1 h2 h3 hv => ?_⟩
  rw [qualifyValue] at hx
  obtain ⟨c, e1, hx⟩ := QM.bind_read_eq_ok hx
  obtain ⟨t', g2, i2, e2, hx⟩ := QM.bind_eq_ok hx
  obtain ⟨_, g3, i3, e3, hx⟩ := QM.bind_eq_ok hx
  have s3 := followed_init hF h0 c.init
  have x3 := (s3.steps.later hx).ext.trans h1
  simp only [QM.modify, Prod.mk.injEq] at e3
  obtain ⟨-, e3, rfl⟩ := e3
  have hl : ∃ j2, qualifyTypeRef fuel c.type h j = (.ok t', g2, j2) ∧ Ext j2 F ∧ Later h j g3 j2 := by
    cases ht : c.type with
    | nil =>
      simp only [ht, qualifyTypeRef, QM.ret, Prod.mk.injEq, Outcome.ok.injEq] at e2
      obtain ⟨rfl, rfl, rfl⟩ := e2
      rw [← ht, upd_eq_self e1] at e3
      subst e3
      exact ⟨j, rfl, h3, .refl _ _⟩
    | name t =>
      simp only [ht, qualifyTypeRef] at e2
      obtain ⟨d, i4, e4, e2⟩ := QM.bind_lift_eq_ok e2
      simp only [QM.ret, Prod.mk.injEq, Outcome.ok.injEq] at e2
      obtain ⟨rfl, rfl, rfl⟩ := e2
      subst e3
      obtain ⟨j', e5, h4, -⟩ := (sure_ensureTypeImported t).follow (synced_ensureTypeImported _) hF e4 x3 h2 h3
        fun pk hp => hv pk ⟨c, e1, .inl (.inl ⟨t, ht, hp.1⟩)⟩
      refine ⟨j', ?_, h4, .step (.refl _ _) (.value e1 ht e5)⟩
      rw [qualifyTypeRef, QM.bind_ok (QM.lift_ok e5)]
      rfl
    | spec q =>
      simp only [ht, qualifyTypeRef] at e2
      obtain ⟨d, g4, i4, e4, e2⟩ := QM.bind_eq_ok e2
      simp only [QM.ret, Prod.mk.injEq, Outcome.ok.injEq] at e2
      obtain ⟨rfl, rfl, rfl⟩ := e2
      have hv' := (specOnly_spec fuel q h i).values
      rw [e4] at hv'
      have hc : g4.values p = some c := by rw [show g4.values = h.values from hv']; exact e1
      have hself : { c with type := TypeRef.spec q } = c := by rw [← ht]
      rw [hself, upd_eq_self hc] at e3
      subst e3
      obtain ⟨j', e5, h4⟩ := (followed_spec hF h0 fuel q).follow e4 x3 h2 h3
        fun pk hp => hv pk ⟨c, e1, .inl (.inr ⟨q, ht, hp⟩)⟩
      refine ⟨j', ?_, h4, (steps_spec fuel q).later e5⟩
      rw [qualifyTypeRef, QM.bind_ok e5]
      rfl
  obtain ⟨j2, f1, y1, l1⟩ := hl
  obtain ⟨j3, f2, y2⟩ := s3.follow hx h1 (l1.inv h2) y1 (fine_later h0 (follows_init _) l1 fun pk hp => hv pk ⟨c, e1, .inr hp⟩)
  refine ⟨j3, ?_, y2⟩
  rw [qualifyValue, QM.bind_ok (QM.read_ok e1), QM.bind_ok f1, QM.bind_ok rfl]
  dsimp only
  rw [e3]
  exact f2

theorem followed_fileElem (hF : Inv F) (h0 : F.importsByPath.get [] = none) (fuel : Nat) (e : FileElem) :
    QM.Follows F (fun h pk => Visited h e pk) (e.qualify fuel) := by
  refine ⟨steps_fileElem fuel e, fun {h i j h' i'} hx h1 h2 h3 hv => ?_⟩
  cases e with
  | values p =>
    obtain ⟨d, e1, hx⟩ := QM.bind_read_eq_ok hx
    obtain ⟨j', e2, h4⟩ := (QM.Follows.forEach h0 (followed_value hF h0 fuel) follows_value d.specs).follow hx h1 h2 h3 (by
      rintro pk ⟨q, h2, c, h3, (⟨n, h4, h5⟩ | ⟨r, h4, h5⟩) | ⟨b, h4, cb, h5, x, h6, h7⟩⟩
      · exact hv pk (.valueType e1 h2 h3 h4 h5)
      · exact hv pk (.valueSpec e1 h2 h3 h4 h5)
      · exact hv pk (.valueInit e1 h2 h3 h4 h5 h6 h7))
    exact ⟨j', by rw [FileElem.qualify, QM.bind_ok (QM.read_ok e1), e2], h4⟩
  | types p =>
    obtain ⟨d, e1, hx⟩ := QM.bind_read_eq_ok hx
    obtain ⟨j', e2, h4⟩ := (QM.Follows.forEach h0 (followed_spec hF h0 fuel) follows_body d.types).follow hx h1 h2 h3 (by
      rintro pk ⟨q, h2, h3⟩
      exact hv pk (.type e1 h2 h3))
    exact ⟨j', by rw [FileElem.qualify, QM.bind_ok (QM.read_ok e1), e2], h4⟩
  | func p =>
    rw [FileElem.qualify, qualifyFunc] at hx
    obtain ⟨f, e1, hx⟩ := QM.bind_read_eq_ok hx
    obtain ⟨s, i1, e2, hx⟩ := QM.bind_lift_eq_ok hx
    obtain ⟨_, g2, i2, e3, hx⟩ := QM.bind_eq_ok hx
    simp only [QM.modify, Prod.mk.injEq] at e3
    obtain ⟨-, rfl, rfl⟩ := e3
    have s2 := followed_code hF h0 f.code
    have x2 := (s2.steps.later hx).ext.trans h1
    obtain ⟨j1, f1, y1, k1⟩ := (sure_ensureAllTypesImported _).follow (synced_ensureAllTypesImported _) hF e2 x2 h2 h3
      fun pk hp => hv pk (.funcSig e1 hp.1)
    obtain ⟨j2, f2, y2⟩ := s2.follow hx h1 k1 y1 (fine_later h0 (.ex follows_codeElem _) (.step (.refl _ _) (.func e1 f1))
      fun pk ⟨x, h1, h2⟩ => hv pk (.funcCode e1 h1 h2))
    refine ⟨j2, ?_, y2⟩
    rw [FileElem.qualify, qualifyFunc, QM.bind_ok (QM.read_ok e1), QM.bind_ok (QM.lift_ok f1), QM.bind_ok rfl, f2]

end

end Gopoet
