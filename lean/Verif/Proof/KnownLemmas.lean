import Verif.Proof.SettledHeap
/-!
# What a qualification pass registers: every package that is mentioned, under its true name if it was
given truthfully
-/

namespace Gopoet
open Imports

/-- The package is imported, or needs no import. -/
def PkgKnown (i : Imports) (pk : Package) : Prop :=
  pk = ⟨[], []⟩ ∨ pk.importPath = i.pkgPath ∨ i.importsByPath.get pk.importPath ≠ none

theorem Ext.known {i j : Imports} (h : Ext i j) {pk : Package} (hk : PkgKnown i pk) : PkgKnown j pk := by
  rcases hk with hk | hk | hk
  · exact .inl hk
  · exact .inr (.inl (hk.trans h.own.symm))
  · refine .inr (.inr ?_)
    cases hg : i.importsByPath.get pk.importPath with
    | none => exact absurd hg hk
    | some d => rw [h.keeps _ _ hg]; simp

theorem Ext.imported {i j : Imports} (h : Ext i j) {p : GoString} (hk : i.importsByPath.get p ≠ none) :
    j.importsByPath.get p ≠ none := by
  rcases hp : i.importsByPath.get p with _ | d
  · exact absurd hp hk
  · rw [h.keeps _ _ hp]; simp

theorem NamedIn.known {i : Imports} {pk : Package} {n : GoString} (h : NamedIn i ⟨pk.importPath, n⟩) :
    PkgKnown i pk := by
  rcases h with ⟨h, _⟩ | ⟨_, d, h, _⟩
  · exact .inr (.inl h)
  · exact .inr (.inr (by rw [h]; simp))

theorem QPkg.known {i : Imports} {pk : Package} (h : QPkg i pk) : PkgKnown i pk := by
  rcases h with h | h
  · exact .inl h
  · exact NamedIn.known (n := pk.name) h

/-- When `x` returns, all the packages of `P` are known. -/
def Registers {α} (P : Package → Prop) (x : IM α) : Prop :=
  ∀ i a j, x i = (.ok a, j) → Ext i j ∧ ∀ pk, P pk → PkgKnown j pk

namespace Registers
variable {α β : Type} {P Q R : Package → Prop}

theorem mono {x : IM α} (hx : Registers P x) (h : ∀ pk, Q pk → P pk) : Registers Q x :=
  fun i a j hr => ⟨(hx i a j hr).1, fun pk hp => (hx i a j hr).2 pk (h pk hp)⟩

theorem bind {x : IM α} {f : α → IM β} (hx : Registers P x) (hf : ∀ a, Registers Q (f a))
    (h : ∀ pk, R pk → P pk ∨ Q pk) : Registers R (x >>= f) := by
  intro i b k hr
  obtain ⟨a, j, h1, h2⟩ := IM.bind_eq_ok hr
  obtain ⟨e1, k1⟩ := hx i a j h1
  obtain ⟨e2, k2⟩ := hf a j b k h2
  refine ⟨e1.trans e2, fun pk hp => ?_⟩
  rcases h pk hp with hp | hp
  · exact e2.known (k1 pk hp)
  · exact k2 pk hp

/-- something that registers nothing of interest -/
def Quiet (x : IM α) : Prop := Registers (fun _ => False) x

theorem pure (a : α) : Quiet (pure a : IM α) := by
  intro i b j h
  obtain ⟨-, rfl⟩ := pure_eq_ok h
  exact ⟨Ext.refl _, by simp⟩

theorem panic : Registers P (IM.panic : IM α) := by
  intro i b j h
  simp at h

theorem lift (x : Outcome α) : Quiet (IM.lift x) := by
  intro i b j h
  obtain ⟨-, rfl⟩ := lift_eq_ok h
  exact ⟨Ext.refl _, by simp⟩

theorem ite {c : Prop} [Decidable c] {x y : IM α} (hx : Registers P x) (hy : Registers P y) :
    Registers P (if c then x else y) := by split <;> assumption

theorem bindQ {x : IM α} {f : α → IM β} (hx : Registers P x) (hf : ∀ a, Quiet (f a)) :
    Registers P (x >>= f) := bind hx hf fun _ => .inl

theorem bind_lift {x : Outcome α} {f : α → IM β} (hf : ∀ a, x = .ok a → Registers P (f a)) :
    Registers P (IM.lift x >>= f) := by
  intro i b k hr
  obtain ⟨a, j, h1, h2⟩ := IM.bind_eq_ok hr
  obtain ⟨h3, rfl⟩ := lift_eq_ok h1
  exact hf a h3 _ _ _ h2

theorem empty {x : IM α} (hx : Quiet x) (h : ∀ pk, ¬ P pk) : Registers P x :=
  mono hx fun pk hp => h pk hp

end Registers

open Registers in
theorem registers_registerPackage (p : Package) : Registers (· = p) (registerPackage p) := by
  intro i a j h
  refine ⟨(runs_registerPackage p).ext h, ?_⟩
  rintro pk rfl
  exact (registerPackage_named h).known

theorem registers_qualify (s : Symbol) : Registers (· = s.package) (qualify s true) := by
  intro i a j h
  refine ⟨(runs_qualify s true).ext h, ?_⟩
  rintro pk rfl
  obtain ⟨j', hj, hc⟩ := qualify_ok s true i (.inl rfl)
  rw [hj] at h
  simp only [Prod.mk.injEq] at h
  obtain ⟨-, rfl⟩ := h
  rcases hc with hc | hc | hc
  · refine .inl ?_
    obtain ⟨h1, h2⟩ := hc
    cases hs : s.package
    simp_all
  · exact .inr (.inl hc)
  · exact .inr (.inr hc)

/-- The packages of symbols. -/
def SymPkgs (l : List Symbol) (pk : Package) : Prop := pk ∈ l.map (·.package)

theorem symPkgs_append {l l' : List Symbol} {pk : Package} (h : SymPkgs (l ++ l') pk) :
    SymPkgs l pk ∨ SymPkgs l' pk := by
  simpa only [SymPkgs, List.map_append, List.mem_append] using h

theorem registers_qualifySymbols : ∀ l, Registers (SymPkgs l) (qualifySymbols true l)
  | [] => .empty (.pure _) (by simp [SymPkgs])
  | s :: l => by
    rw [qualifySymbols]
    refine .bind (registers_qualify s) (fun _ => .bindQ (registers_qualifySymbols l) fun _ => .pure _) ?_
    intro pk hpk
    simpa [SymPkgs] using hpk

open Registers in
mutual
theorem registers_qualifyType : ∀ t, Registers (SymPkgs t.symbols) (qualifyType true t)
  | .nil => by rw [qualifyType]; exact .panic
  | .basic k => by rw [qualifyType]; exact .empty (.pure _) (by simp [SymPkgs, TypeName.symbols])
  | .named s => by
    rw [qualifyType]
    exact .bindQ ((registers_qualify s).mono (by simp [SymPkgs, TypeName.symbols]))
      fun _ => .ite (.pure _) (.pure _)
  | .ptr e => by
    rw [qualifyType]
    exact .bindQ (registers_qualifyType e) fun _ => .ite (.bindQ (.lift _) fun _ => .pure _) (.pure _)
  | .slice e => by
    rw [qualifyType]
    exact .bindQ (registers_qualifyType e) fun _ => .ite (.bindQ (.lift _) fun _ => .pure _) (.pure _)
  | .array e n => by
    rw [qualifyType]
    exact .bindQ (registers_qualifyType e) fun _ => .ite (.bindQ (.lift _) fun _ => .pure _) (.pure _)
  | .map e k => by
    rw [qualifyType]
    exact .bind (registers_qualifyType k) (fun _ => .bindQ (registers_qualifyType e) fun _ =>
      .ite (.bindQ (.lift _) fun _ => .pure _) (.pure _)) fun _ h => symPkgs_append h
  | .chan e d => by
    rw [qualifyType]
    exact .bindQ (registers_qualifyType e) fun _ => .ite (.bindQ (.lift _) fun _ => .pure _) (.pure _)
  | .func s => by
    rw [qualifyType]
    exact .bindQ (registers_qualifySignature s) fun _ => .ite (.bindQ (.lift _) fun _ => .pure _) (.pure _)
  | .struct fs => by
    rw [qualifyType]
    exact .bindQ (registers_qualifyFields fs) fun _ => .ite (.pure _) (.pure _)
  | .interface ms es => by
    rw [qualifyType]
    exact .bind (registers_qualifySymbols es) (fun _ => .bindQ (registers_qualifyMethods ms) fun _ =>
      .ite (.pure _) (.pure _)) fun _ h => symPkgs_append h
theorem registers_qualifySignature : ∀ s : Signature, Registers (SymPkgs s.symbols) (qualifySignature true s)
  | ⟨args, results, v⟩ => by
    rw [qualifySignature]
    exact .bind (registers_qualifyArgs args) (fun _ => .bindQ (registers_qualifyArgs results) fun _ =>
      .ite (.pure _) (.pure _)) fun _ h => symPkgs_append h
theorem registers_qualifyArgs : ∀ l, Registers (SymPkgs (symbolsArgs l)) (qualifyArgs true l)
  | [] => by rw [qualifyArgs]; exact .empty (.pure _) (by simp [SymPkgs, symbolsArgs])
  | ⟨n, t⟩ :: l => by
    rw [qualifyArgs]
    exact .bind (registers_qualifyType t) (fun _ => .bindQ (registers_qualifyArgs l) fun _ => .pure _)
      fun _ h => symPkgs_append h
theorem registers_qualifyFields : ∀ l, Registers (SymPkgs (symbolsFields l)) (qualifyFields true l)
  | [] => by rw [qualifyFields]; exact .empty (.pure _) (by simp [SymPkgs, symbolsFields])
  | ⟨n, t, g⟩ :: l => by
    rw [qualifyFields]
    exact .bind (registers_qualifyType t) (fun _ => .bindQ (registers_qualifyFields l) fun _ => .pure _)
      fun _ h => symPkgs_append h
theorem registers_qualifyMethods : ∀ l, Registers (SymPkgs (symbolsMethods l)) (qualifyMethods true l)
  | [] => by rw [qualifyMethods]; exact .empty (.pure _) (by simp [SymPkgs, symbolsMethods])
  | ⟨n, s⟩ :: l => by
    rw [qualifyMethods]
    exact .bind (registers_qualifySignature s) (fun _ => .bindQ (registers_qualifyMethods l) fun _ => .pure _)
      fun _ h => symPkgs_append h
end

theorem registers_ensureImported (s : Symbol) : Registers (· = s.package) (ensureImported s) :=
  registers_qualify s

theorem registers_ensureTypeImported (t : TypeName) :
    Registers (SymPkgs t.symbols) (ensureTypeImported t) :=
  .bindQ (registers_qualifyType t) fun _ => .pure _

theorem registers_ensureAllTypesImported (t : Signature) :
    Registers (SymPkgs t.symbols) (ensureAllTypesImported t) :=
  .bindQ (registers_qualifySignature t) fun _ => .pure _

theorem registers_qualifySymOrRef (o : Arg) (s : SymbolOrMethodRef) :
    Registers (· = s.package) (qualifySymOrRef o s) := by
  cases s with
  | symbol s => exact .bindQ (registers_ensureImported _) fun _ => .pure _
  | method m => exact .bindQ (registers_ensureImported _) fun _ => .ite (.pure _) (.pure _)

theorem mem_convertedRefs {o : Outcome TypeName} {t : TypeName} {pk : Package} (h : o = .ok t)
    (hp : pk ∈ convertedRefs o) : SymPkgs t.symbols pk := by subst h; exact hp

/-- What an argument mentions is known after its qualification. -/
theorem registers_qualifyArg (h : Heap) (a : Arg) :
    Registers (fun pk => WrittenArg h a pk ∨ pk ∈ a.packages) (qualifyArg h a) := by
  cases a <;> rw [qualifyArg]
  case package | packagePtr =>
    refine .bindQ ((registers_registerPackage _).mono ?_) fun _ => .ite (.pure _) (.pure _)
    rintro pk (⟨⟨⟩, hw⟩ | hw)
    · simpa [Reference.packages] using hw
    · simpa [Arg.packages] using hw
  case symbol | symbolPtr =>
    refine .bindQ ((registers_ensureImported _).mono ?_) fun _ => .pure _
    rintro pk (⟨⟨⟩, hw⟩ | hw)
    · simpa [Reference.packages] using hw
    · simpa [Arg.packages] using hw
  case mref | mrefPtr =>
    refine (registers_qualifySymOrRef _ _).mono ?_
    rintro pk (⟨⟨⟩, hw⟩ | hw)
    · simpa [Reference.packages, SymbolOrMethodRef.package] using hw
    · simpa [Arg.packages, SymbolOrMethodRef.package] using hw
  case sig | sigPtr =>
    refine .bindQ ((registers_ensureAllTypesImported _).mono ?_) fun _ => .pure _
    rintro pk (hw | hw)
    · rcases hw with ⟨⟨⟩, hw⟩ | hw | hw
      exact hw
    · exact hw
  case typeName =>
    refine .bindQ ((registers_ensureTypeImported _).mono ?_) fun _ => .pure _
    rintro pk (⟨⟨⟩, hw⟩ | hw)
    · exact hw
    · exact hw
  case value p =>
    refine .bind_lift fun s hs => (registers_qualifySymOrRef _ _).mono ?_
    rintro pk (⟨hd, hw⟩ | hw)
    · cases hd with | value h1 h2 h3 h4 =>
      simp [deref, Outcome.bind, h1, h2, h3, h4, ValueSpec.toSymbol, ValueSpec.symbolAt, packageAt, GoFile.package] at hs
      subst hs
      simpa [Reference.packages, SymbolOrMethodRef.package] using hw
    · simp [Arg.packages] at hw
  case typeSpec p =>
    refine .bind_lift fun s hs => (registers_qualifySymOrRef _ _).mono ?_
    rintro pk (⟨hd, hw⟩ | hw)
    · cases hd with | typeSpec h1 h2 h3 h4 =>
      simp [deref, Outcome.bind, h1, h2, h3, h4, TypeSpec.toSymbol, packageAt, GoFile.package] at hs
      subst hs
      simpa [Reference.packages, SymbolOrMethodRef.package] using hw
    · simp [Arg.packages] at hw
  case ifaceMethod p =>
    refine .bind_lift fun s hs => (registers_qualifySymOrRef _ _).mono ?_
    rintro pk (⟨hd, hw⟩ | hw)
    · cases hd with | ifaceMethod h1 h2 h3 h4 h5 h6 =>
      simp [deref, Outcome.bind, h1, h2, h3, h4, h5, h6, InterfaceMethod.toMethodRef, TypeSpec.toSymbol, packageAt, GoFile.package] at hs
      subst hs
      simpa [Reference.packages, SymbolOrMethodRef.package] using hw
    · simp [Arg.packages] at hw
  case func p =>
    refine .bind_lift fun s hs => (registers_qualifySymOrRef _ _).mono ?_
    rintro pk (⟨hd, hw⟩ | hw)
    · cases hd with
      | func h1 h2 h3 h4 =>
        simp [deref, Outcome.bind, h1, h2, h3, h4, FuncSpec.toSymbol, packageAt, GoFile.package] at hs
        subst hs
        simpa [Reference.packages, SymbolOrMethodRef.package] using hw
      | method h1 h2 h3 h4 =>
        simp [deref, Outcome.bind, h1, h2, h3, h4, FuncSpec.toSymbol, packageAt, GoFile.package] at hs
        subst hs
        simpa [Reference.packages, SymbolOrMethodRef.package] using hw
    · simp [Arg.packages] at hw
  case goObject =>
    refine .bind_lift fun s hs => (registers_qualifySymOrRef _ _).mono ?_
    rintro pk (⟨hd, hw⟩ | hw)
    · cases hd with
      | goSymbol h1 => rw [h1] at hs; cases hs; simpa [Reference.packages, SymbolOrMethodRef.package] using hw
      | goMethod h1 => rw [h1] at hs; cases hs; simpa [Reference.packages, SymbolOrMethodRef.package] using hw
    · rw [Arg.packages, objectRefs_ok hs] at hw; simpa using hw
  case reflectType | goType =>
    refine .bind_lift fun t ht => .bindQ ((registers_ensureTypeImported _).mono ?_) fun _ => .pure _
    rintro pk (⟨hd, hw⟩ | hw)
    · cases hd; rename_i h1; rw [h1] at ht; cases ht; exact hw
    · exact mem_convertedRefs ht hw
  case goPackage =>
    refine .bind_lift fun t ht => .bindQ ((registers_registerPackage _).mono ?_) fun _ => .pure _
    cases ht
    rintro pk (⟨⟨⟩, hw⟩ | hw)
    · simpa [Reference.packages] using hw
    · simpa [Arg.packages] using hw
  all_goals first
    | (refine .empty (.pure _) ?_
       rintro pk (⟨⟨⟩, hw⟩ | hw)
       simp [Arg.packages] at hw)
    | (intros; simp_all)

theorem qualifyArgList_registers {h : Heap} : ∀ {l l' : List Arg} {i j : Imports},
    qualifyArgList h l i = (.ok (), l', j) → ∀ a ∈ l, ∀ pk, WrittenArg h a pk ∨ pk ∈ a.packages → PkgKnown j pk
  | [], l', i, j, hx => by simp
  | a :: l, l', i, j, hx => by
    rw [qualifyArgList] at hx
    rcases ha : qualifyArg h a i with ⟨_ | _ | _, i1⟩ <;> rw [ha] at hx
    · rcases hl : qualifyArgList h l i1 with ⟨o, l1, i2⟩
      simp only [hl, Prod.mk.injEq] at hx
      obtain ⟨rfl, rfl, rfl⟩ := hx
      have ih := qualifyArgList_registers hl
      have hev := (evolves_qualifyArgList h l i1).1
      rw [hl] at hev
      intro b hb
      rcases List.mem_cons.1 hb with rfl | hb
      · exact fun pk hpk => hev.ext.known ((registers_qualifyArg h b _ _ _ ha).2 pk hpk)
      · exact ih b hb
    · simp at hx
    · simp at hx

/-! ### Template data -/

theorem registers_embedQualify (e : InterfaceEmbed) : Registers (· = e.type.package) e.qualify :=
  .bindQ (registers_ensureImported _) fun _ => .pure _

theorem registers_methodQualify (m : InterfaceMethod) :
    Registers (SymPkgs m.signature.symbols) m.qualify :=
  .bindQ (registers_qualifySignature _) fun _ => .pure _

theorem registers_qualifySpecIn (r : SpecRef) (o : TVal) (p : Package) :
    Registers (· = p) (qualifySpecIn r o p) :=
  .bindQ (registers_registerPackage _) fun _ => .ite (.pure _) (.pure _)

theorem registers_qualifyConverted (acc : Accepts) (o : TVal) (t : Outcome TypeName) :
    Registers (· ∈ convertedRefs t) (qualifyConverted acc o t) :=
  .bind_lift fun _ ht => .bindQ ((registers_qualifyType _).mono fun _ h => mem_convertedRefs ht h)
    fun _ => .ite (.pure _) (.pure _)

theorem registers_qualifyObject (acc : Accepts) (o : TVal) (s : SymbolOrMethodRef) :
    Registers (· = s.package) (qualifyObject acc o s) := by
  cases s <;>
  exact .bindQ (registers_ensureImported _) fun _ => .ite (.pure _) (.pure _)

mutual
theorem registers_qualifyData (h : Heap) (addr : Bool) : ∀ v, Registers (· ∈ TVal.packages v) (qualifyData h addr v)
  | .iface acc v => by
    cases v
    case typeName | reflectType | goType =>
      simp only [qualifyData]
      exact (registers_qualifyConverted _ _ _).mono fun pk hpk => (by
        rw [TVal.packages] at hpk; exact hpk)
    case goObject =>
      simp only [qualifyData]
      refine .bind_lift fun s hs => (registers_qualifyObject _ _ _).mono fun pk hpk => ?_
      rw [TVal.packages, objectRefs_ok hs] at hpk
      simpa using hpk
    case goPackage =>
      simp only [qualifyData]
      refine .bind_lift fun t ht => .bindQ ((registers_registerPackage _).mono fun pk hpk => ?_)
        fun _ => .ite (.pure _) (.pure _)
      cases ht
      simpa [TVal.packages] using hpk
    all_goals
      rw [qualifyData]
      all_goals first
        | exact .bindQ ((registers_qualifyData h false _).mono
            (by intro pk hpk; rw [TVal.packages] at hpk <;> first | exact hpk | simp)) fun _ => .pure _
        | (intros; simp_all)
  | .package p => by
    rw [qualifyData]
    exact .bindQ ((registers_registerPackage _).mono (by simp [TVal.packages]))
      fun _ => .ite (.pure _) (.pure _)
  | .symbol s => by
    rw [qualifyData]
    exact .bindQ ((registers_ensureImported _).mono (by simp [TVal.packages])) fun _ => .pure _
  | .mref m => by
    rw [qualifyData]
    exact .bindQ ((registers_ensureImported _).mono (by simp [TVal.packages])) fun _ => .pure _
  | .signature s => by
    rw [qualifyData]; exact .bindQ (registers_qualifySignature _) fun _ => .pure _
  | .spec r => by
    refine .mono (P := fun _ => False) ?_ (by intro pk hpk; rw [TVal.packages] at hpk <;> simp_all)
    rw [qualifyData]
    refine .bind_lift fun a _ => ?_
    cases a with
    | none => exact .pure _
    | some f => exact .bind_lift fun f hf => (registers_qualifySpecIn _ _ _).mono fun _ => False.elim
  | .specCopy r pkg => by
    rw [qualifyData]; exact (registers_qualifySpecIn _ _ _).mono (by simp [TVal.packages])
  | .embed e => by
    rw [qualifyData]
    exact .bindQ ((registers_embedQualify _).mono (by simp [TVal.packages])) fun _ => .pure _
  | .method e => by
    rw [qualifyData]; exact .bindQ (registers_methodQualify _) fun _ => .pure _
  | .ptr v => by
    rw [qualifyData]
    exact .bindQ ((registers_qualifyData h true v).mono
      (by intro pk hpk; rw [TVal.packages] at hpk; exact hpk)) fun _ => .pure _
  | .struct fs => by
    rw [qualifyData]
    exact .bindQ ((registers_qualifyDataFields h addr false false fs).mono
      (by intro pk hpk; rw [TVal.packages] at hpk; exact hpk)) fun _ => .pure _
  | .array vs => by
    rw [qualifyData]
    exact .bindQ ((registers_qualifyDataElems h addr addr false vs).mono
      (by intro pk hpk; rw [TVal.packages] at hpk; exact hpk)) fun _ => .pure _
  | .slice vs => by
    rw [qualifyData]
    exact .bindQ ((registers_qualifyDataElems h true true false vs).mono
      (by intro pk hpk; rw [TVal.packages] at hpk; exact hpk)) fun _ => .pure _
  | .map es => by
    rw [qualifyData]
    exact .bindQ ((registers_qualifyDataEntries h es).mono
      (by intro pk hpk; rw [TVal.packages] at hpk; exact hpk))
      fun _ => .ite (.pure _) (.pure _)
  | .scalar _ => by
    refine .empty ?_ (by intro pk; rw [TVal.packages] <;> simp)
    rw [qualifyData] <;> first | exact .pure _ | (intros; simp_all)
  | .imports => by
    refine .empty ?_ (by intro pk; rw [TVal.packages] <;> simp)
    rw [qualifyData] <;> first | exact .pure _ | (intros; simp_all)
  | .typeName _ => by
    refine .empty ?_ (by intro pk; rw [TVal.packages] <;> simp)
    rw [qualifyData] <;> first | exact .pure _ | (intros; simp_all)
  | .reflectType _ => by
    refine .empty ?_ (by intro pk; rw [TVal.packages] <;> simp)
    rw [qualifyData] <;> first | exact .pure _ | (intros; simp_all)
  | .goType _ => by
    refine .empty ?_ (by intro pk; rw [TVal.packages] <;> simp)
    rw [qualifyData] <;> first | exact .pure _ | (intros; simp_all)
  | .goObject _ => by
    refine .empty ?_ (by intro pk; rw [TVal.packages] <;> simp)
    rw [qualifyData] <;> first | exact .pure _ | (intros; simp_all)
  | .goPackage _ => by
    refine .empty ?_ (by intro pk; rw [TVal.packages] <;> simp)
    rw [qualifyData] <;> first | exact .pure _ | (intros; simp_all)
theorem registers_qualifyDataFields (h : Heap) (addr : Bool) : ∀ c hid fs,
    Registers (· ∈ packagesFields fs) (qualifyDataFields h addr c hid fs)
  | _, _, [] => by rw [qualifyDataFields]; exact .empty (.pure _) (by simp [packagesFields])
  | _, _, (_, v) :: fs => by
    rw [qualifyDataFields, packagesFields]
    exact .ite .panic (.bind (registers_qualifyData h addr v) (fun _ =>
      .ite .panic (.bindQ (registers_qualifyDataFields h addr _ _ fs) fun _ => .pure _))
      fun _ hp => List.mem_append.1 hp)
theorem registers_qualifyDataElems (h : Heap) (addr s : Bool) : ∀ c vs,
    Registers (· ∈ packagesElems vs) (qualifyDataElems h addr s c vs)
  | _, [] => by rw [qualifyDataElems]; exact .empty (.pure _) (by simp [packagesElems])
  | _, v :: vs => by
    rw [qualifyDataElems, packagesElems]
    exact .bind (registers_qualifyData h addr v) (fun _ =>
      .ite .panic (.bindQ (registers_qualifyDataElems h addr s _ vs) fun _ => .pure _))
      fun _ hp => List.mem_append.1 hp
theorem registers_qualifyDataEntries (h : Heap) : ∀ es,
    Registers (· ∈ packagesEntries es) (qualifyDataEntries h es)
  | [] => by rw [qualifyDataEntries]; exact .empty (.pure _) (by simp [packagesEntries])
  | (k, v) :: es => by
    rw [qualifyDataEntries, packagesEntries]
    exact .bind (registers_qualifyData h false k) (fun _ => .bind (registers_qualifyData h false v)
      (fun _ => .ite .panic (.bindQ (registers_qualifyDataEntries h es) fun _ => .pure _))
      (R := fun pk => pk ∈ v.packages ∨ pk ∈ packagesEntries es) fun _ hp => hp)
      fun _ hp => by simpa [or_assoc] using hp
end

theorem registers_qualifyTemplateData (h : Heap) (d : TVal) :
    Registers (· ∈ (TVal.iface acceptsAll d).packages) (qualifyTemplateData h d) := by
  refine .bindQ (registers_qualifyData h true _) fun r => ?_
  obtain ⟨r, c⟩ := r
  cases r <;> exact .pure _

theorem refs_sub_iface (acc : Accepts) {v : TVal} (hv : v.isConv = false) :
    (TVal.iface acc v).packages = v.packages := by
  cases v <;> simp only [TVal.isConv, Bool.true_eq_false] at hv <;> rw [TVal.packages] <;> simp

mutual
theorem TVal.refs_sub : ∀ (v : TVal) {pk : Package}, pk ∈ v.refs → pk ∈ v.packages
  | .iface acc v, pk, h => by
    by_cases hv : v.isConv = true
    · cases v <;> simp only [TVal.isConv, Bool.false_eq_true] at hv <;>
        · simp only [TVal.refs] at h
          simp only [TVal.packages]
          split at h
          · exact h
          · simp at h
    · have hv : v.isConv = false := by simpa using hv
      rw [refs_iface _ hv] at h
      rw [refs_sub_iface _ hv]
      exact TVal.refs_sub v h
  | .package p, pk, h => by simpa [TVal.refs, TVal.packages] using h
  | .symbol p, pk, h => by simpa [TVal.refs, TVal.packages] using h
  | .mref p, pk, h => by simpa [TVal.refs, TVal.packages] using h
  | .signature p, pk, h => by simpa [TVal.refs, TVal.packages] using h
  | .spec _, pk, h => by simp [TVal.refs] at h
  | .specCopy _ _, pk, h => by simp [TVal.refs] at h
  | .embed p, pk, h => by simpa [TVal.refs, TVal.packages] using h
  | .method p, pk, h => by simpa [TVal.refs, TVal.packages] using h
  | .ptr v, pk, h => by
    rw [TVal.refs] at h
    rw [TVal.packages]
    exact TVal.refs_sub v h
  | .struct fs, pk, h => by
    rw [TVal.refs] at h
    rw [TVal.packages]
    exact refsFields_sub fs h
  | .array fs, pk, h => by
    rw [TVal.refs] at h
    rw [TVal.packages]
    exact refsElems_sub fs h
  | .slice fs, pk, h => by
    rw [TVal.refs] at h
    rw [TVal.packages]
    exact refsElems_sub fs h
  | .map fs, pk, h => by
    rw [TVal.refs] at h
    rw [TVal.packages]
    exact refsEntries_sub fs h
  | .scalar _, pk, h => by simp [TVal.refs] at h
  | .imports, pk, h => by simp [TVal.refs] at h
  | .typeName _, pk, h => by simp [TVal.refs] at h
  | .reflectType _, pk, h => by simp [TVal.refs] at h
  | .goType _, pk, h => by simp [TVal.refs] at h
  | .goObject _, pk, h => by simp [TVal.refs] at h
  | .goPackage _, pk, h => by simp [TVal.refs] at h
theorem refsFields_sub : ∀ (v : List (Bool × TVal)) {pk : Package}, pk ∈ refsFields v → pk ∈ packagesFields v
  | [], pk, h => by simp [refsFields] at h
  | (_, v) :: fs, pk, h => by
    rw [refsFields, List.mem_append] at h
    rw [packagesFields, List.mem_append]
    exact h.imp (TVal.refs_sub v) (refsFields_sub fs)
theorem refsElems_sub : ∀ (v : List TVal) {pk : Package}, pk ∈ refsElems v → pk ∈ packagesElems v
  | [], pk, h => by simp [refsElems] at h
  | v :: fs, pk, h => by
    rw [refsElems, List.mem_append] at h
    rw [packagesElems, List.mem_append]
    exact h.imp (TVal.refs_sub v) (refsElems_sub fs)
theorem refsEntries_sub : ∀ (v : List (TVal × TVal)) {pk : Package}, pk ∈ refsEntries v → pk ∈ packagesEntries v
  | [], pk, h => by simp [refsEntries] at h
  | (k, v) :: fs, pk, h => by
    rw [refsEntries, List.mem_append, List.mem_append] at h
    rw [packagesEntries, List.mem_append, List.mem_append]
    exact h.imp (Or.imp (TVal.refs_sub k) (TVal.refs_sub v)) (refsEntries_sub fs)
end

end Gopoet
