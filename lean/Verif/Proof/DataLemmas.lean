import Verif.Proof.SettledData
import Verif.Proof.KnownLemmas
/-! Template data: what qualification computes. -/

namespace Gopoet
open Imports

/-- Whenever `x` returns, its result satisfies `F`, in the resulting state and all later ones. -/
def Post {α} (F : Imports → α → Prop) (x : IM α) : Prop :=
  ∀ i j a, x i = (.ok a, j) → Ext i j ∧ ∀ k, Ext j k → F k a

namespace Post
variable {α β : Type} {F : Imports → α → Prop}

theorem pure {a : α} (h : ∀ k, F k a) : Post F (pure a : IM α) := by
  intro i j b hx
  obtain ⟨rfl, rfl⟩ := pure_eq_ok hx
  exact ⟨.refl _, fun k _ => h k⟩

theorem panic : Post F (IM.panic : IM α) := by
  intro i j b hx
  simp at hx

theorem bind {G : Imports → β → Prop} {x : IM α} {f : α → IM β} (hx : Post F x)
    (hf : ∀ a, Post (fun k b => F k a → G k b) (f a)) : Post G (x >>= f) := by
  intro i j b h
  obtain ⟨a, i1, h1, h2⟩ := IM.bind_eq_ok h
  obtain ⟨e1, p1⟩ := hx _ _ _ h1
  obtain ⟨e2, p2⟩ := hf _ _ _ _ h2
  exact ⟨e1.trans e2, fun k hk => p2 k hk (p1 k (e2.trans hk))⟩

theorem ite {c : Prop} [Decidable c] {x y : IM α} (hx : c → Post F x) (hy : ¬ c → Post F y) :
    Post F (if c then x else y) := by
  by_cases h : c
  · rw [if_pos h]; exact hx h
  · rw [if_neg h]; exact hy h

theorem lift {o : Outcome α} : Post (fun _ a => o = .ok a) (IM.lift o) := by
  intro i j a hx
  obtain ⟨h, rfl⟩ := lift_eq_ok hx
  exact ⟨.refl _, fun _ _ => h⟩

theorem bind_panic {o : Outcome α} {f : α → IM β} {G : Imports → β → Prop} (h : o.isOk = false) :
    Post G (IM.lift o >>= f) := by
  intro i j b hx
  obtain ⟨a, i1, h1, -⟩ := IM.bind_eq_ok hx
  obtain ⟨rfl, -⟩ := lift_eq_ok h1
  simp [Outcome.isOk] at h

theorem mono {G : Imports → α → Prop} {x : IM α} (hx : Post F x) (h : ∀ k a, F k a → G k a) : Post G x :=
  fun i j a e => ⟨(hx i j a e).1, fun k hk => h k a ((hx i j a e).2 k hk)⟩

end Post

theorem symIn_eq (k : Imports) (s : Symbol) : k.symIn s = s.requalify k.qualifierOf := by
  obtain ⟨⟨p, n⟩, m⟩ := s
  simp only [Imports.symIn, Symbol.withPrefix, Symbol.requalify, Imports.qualifierOf, Package.mk.injEq]
  by_cases h : n = [] ∧ p = []
  · rw [if_pos h, if_pos h.symm]
  · rw [if_neg h, if_neg (c := p = [] ∧ n = []) (fun h' => h h'.symm)]
    by_cases ho : p = k.pkgPath
    · rw [if_pos ho, if_pos ho]
    · rw [if_neg ho, if_neg ho]; rfl

theorem NamedIn.qualifierOf {i : Imports} {pk : Package} (h : NamedIn i pk) :
    i.qualifierOf pk.importPath = pk.name := by
  rcases h with ⟨h1, h2⟩ | ⟨h1, d, h2, h3⟩
  · simp [Imports.qualifierOf, h1, h2]
  · simp [Imports.qualifierOf, h1, h2, h3]

theorem post_registerPackage (pk : Package) :
    Post (fun k n => n = k.qualifierOf pk.importPath) (registerPackage pk) := by
  intro i j n hx
  exact ⟨(runs_registerPackage pk).ext hx, fun k hk => ((hk.named (registerPackage_named hx)).qualifierOf).symm⟩

theorem post_ensureImported (s : Symbol) :
    Post (fun k s' => s' = s.requalify k.qualifierOf) (ensureImported s) := by
  intro i j s' hx
  obtain ⟨j', h1, h2⟩ := qualify_ok s true i (.inl rfl)
  rw [ensureImported, h1] at hx
  simp only [Prod.mk.injEq, Outcome.ok.injEq] at hx
  obtain ⟨rfl, rfl⟩ := hx
  exact ⟨(runs_qualify s true).ext h1, fun k hk => by
    show _ = _
    rw [← symIn_eq, hk.symIn h2]⟩

/-- Replacing names changes one of the symbols. -/
def changes (n : GoString → GoString) (l : List Symbol) : Bool := l.any (fun s => decide (s.requalify n ≠ s))

theorem symIn_fun (k : Imports) : k.symIn = (·.requalify k.qualifierOf) := funext (symIn_eq k)

theorem post_qualifyType {t : TypeName} (hv : t.valid = true) :
    Post (fun k r => r = (t.mapSymbols (·.requalify k.qualifierOf), changes k.qualifierOf t.symbols))
      (qualifyType true t) := by
  intro i j r hx
  obtain ⟨j', h1, h2⟩ := qualifyType_ok true t i hv (.inl rfl)
  refine ⟨(runs_qualifyType true t).ext hx, fun k hk => ?_⟩
  rw [h1] at hx
  simp only [Prod.mk.injEq, Outcome.ok.injEq] at hx
  obtain ⟨rfl, rfl⟩ := hx
  have he : ∀ s ∈ t.symbols, j'.symIn s = k.symIn s := fun s hs => (hk.symIn (h2 s hs)).symm
  rw [mapSymbols_congr t he, anyChanged_congr he, symIn_fun]
  rfl

theorem post_qualifySignature {t : Signature} (hv : t.valid = true) :
    Post (fun k r => r = (t.mapSymbols (·.requalify k.qualifierOf), changes k.qualifierOf t.symbols))
      (qualifySignature true t) := by
  intro i j r hx
  obtain ⟨j', h1, h2⟩ := qualifySignature_ok true t i hv (.inl rfl)
  refine ⟨(runs_qualifySignature true t).ext hx, fun k hk => ?_⟩
  rw [h1] at hx
  simp only [Prod.mk.injEq, Outcome.ok.injEq] at hx
  obtain ⟨rfl, rfl⟩ := hx
  have he : ∀ s ∈ t.symbols, j'.symIn s = k.symIn s := fun s hs => (hk.symIn (h2 s hs)).symm
  rw [mapSymbols_congr_sig t he, anyChanged_congr he, symIn_fun]
  rfl

theorem map_eq_self {α} {f : α → α} : ∀ {l : List α}, l.map f = l ↔ ∀ a ∈ l, f a = a
  | [] => by simp
  | a :: l => by simp [map_eq_self (l := l)]

theorem changes_false {n : GoString → GoString} {l : List Symbol} :
    changes n l = false ↔ ∀ s ∈ l, s.requalify n = s := by simp [changes]

theorem changes_type {n : GoString → GoString} {t : TypeName} :
    changes n t.symbols = false ↔ t.mapSymbols (·.requalify n) = t := by
  rw [changes_false]
  refine ⟨mapSymbols_eq_self t, fun h => ?_⟩
  have h' := symbols_mapSymbols (·.requalify n) t
  rw [h] at h'
  exact map_eq_self.1 h'.symm

theorem changes_sig {n : GoString → GoString} {t : Signature} :
    changes n t.symbols = false ↔ t.mapSymbols (·.requalify n) = t := by
  rw [changes_false]
  refine ⟨mapSymbols_eq_self_sig t, fun h => ?_⟩
  have h' := symbols_mapSymbols_sig (·.requalify n) t
  rw [h] at h'
  exact map_eq_self.1 h'.symm

theorem lift_bind {α β : Type} (a : α) (f : α → IM β) : (IM.lift (.ok a) >>= f) = f a := by
  funext i
  rw [IM.bind_ok (IM.lift_apply _ _)]

theorem deref_some {α : Type} {m : Ptr → Option α} {p : Ptr} {a : α} (h : m p = some a) : deref m p = .ok a := by
  rw [deref, h]

/-- What is computed: a result that is new exactly if it differs, and the data with the right names if
no keys of maps collide. -/
def Computed (h : Heap) (v : TVal) (k : Imports) (r : TVal × Bool) : Prop :=
  (r.2 = false ↔ v.requalify h k.qualifierOf = v) ∧
  (v.flatPtrs = true → (v.requalify h k.qualifierOf).distinctKeys = true → r.1 = v.requalify h k.qualifierOf)

theorem Computed.of {h : Heap} {v w : TVal} {c : Bool} {k : Imports} (h1 : c = false ↔ w = v)
    (h2 : v.requalify h k.qualifierOf = w) : Computed h v k (w, c) :=
  ⟨by rw [h2]; exact h1, fun _ _ => h2.symm⟩

theorem requalify_iface (H : Heap) (n : GoString → GoString) (acc : Accepts) {v : TVal} (hv : v.isConv = false) :
    (TVal.iface acc v).requalify H n = .iface acc (v.requalify H n) := by
  cases v <;> simp only [TVal.isConv, Bool.true_eq_false] at hv <;> rw [TVal.requalify] <;> simp

theorem inIface_requalify {v : TVal} (H : Heap) (n : GoString → GoString) (hv : v.isIface = false) :
    (v.requalify H n).inIface = v.requalify H n := by
  cases v <;> simp only [TVal.isIface, Bool.true_eq_false] at hv <;> (try (rw [TVal.requalify] <;> simp [TVal.inIface]; done))
  case spec r =>
    rw [TVal.requalify]
    cases r.package H with
    | none => rfl
    | some p => dsimp only; split <;> rfl

theorem ifacePtr_of_flatPtrs : ∀ {v : TVal}, v.flatPtrs = true → v.ifacePtr = false
  | .ptr v, h => by
    simp only [TVal.flatPtrs, Bool.and_eq_true, Bool.not_eq_true'] at h
    have ih := ifacePtr_of_flatPtrs h.2
    cases v <;> first | (simp only [TVal.isIface, Bool.true_eq_false, false_and] at h; done) | exact ih
  | .iface _ _, _ | .package _, _ | .symbol _, _ | .mref _, _ | .signature _, _ | .spec _, _ | .specCopy _ _, _
  | .embed _, _ | .method _, _ | .map _, _ | .slice _, _ | .struct _, _ | .array _, _ | .scalar _, _ | .imports, _
  | .typeName _, _ | .reflectType _, _ | .goType _, _ | .goObject _, _ | .goPackage _, _ => rfl

theorem validTypes_iface (acc : Accepts) {v : TVal} (hv : v.isConv = false) :
    (TVal.iface acc v).validTypes = v.validTypes := by
  cases v <;> simp only [TVal.isConv, Bool.true_eq_false] at hv <;> rw [TVal.validTypes] <;> simp

theorem post_converted {h : Heap} {acc : Accepts} {v : TVal} {o : Outcome TypeName} (hv : convertedValid o = true)
    (hr : ∀ n, (TVal.iface acc v).requalify h n = requalifyConverted n acc (.iface acc v) o)
    (hne : ∀ t' : TypeName, v = .typeName t' → o = .ok t') :
    Post (Computed h (.iface acc v)) (qualifyConverted acc (.iface acc v) o) := by
  cases o with
  | panic => simp [convertedValid] at hv
  | hang => simp [convertedValid] at hv
  | ok t =>
    refine .bind .lift fun t' => ?_
    by_cases ht : t = t'
    · subst ht
      refine (Post.bind (post_qualifyType hv) fun r => ?_).mono fun k a h _ => h
      obtain ⟨t', c⟩ := r
      refine .ite (fun hc => .pure fun k hk => ?_) (fun hc => .pure fun k hk => ?_)
      · simp only [Prod.mk.injEq] at hk
        simp only [Bool.and_eq_true] at hc
        have hch : changes k.qualifierOf t.symbols = true := hk.2 ▸ hc.1
        refine .of ?_ ?_
        · simp only [Bool.true_eq_false, TVal.iface.injEq, true_and, false_iff]
          intro hw
          have := hne _ hw.symm
          simp only [Outcome.ok.injEq] at this
          rw [hk.1] at this
          rw [changes_type.2 this.symm] at hch
          simp at hch
        · rw [hr, requalifyConverted, ← hk.1, if_pos]
          rw [hc.2]; simpa [changes] using hch
      · simp only [Prod.mk.injEq] at hk
        refine .of (by simp) ?_
        rw [hr, requalifyConverted, if_neg]
        intro h'
        apply hc
        rw [hk.2]
        simp only [Bool.and_eq_true] at h' ⊢
        exact ⟨h'.2, h'.1⟩
    · intro i j a hx
      refine ⟨?_, fun k _ h => absurd (Outcome.ok.inj h) ht⟩
      exact (Post.bind (F := fun _ _ => True) (G := fun _ _ => True)
        (fun i j a hx => ⟨(runs_qualifyType true t').ext hx, fun _ _ => trivial⟩)
        (fun r => by
          obtain ⟨_, _⟩ := r
          exact .ite (fun _ => .pure fun _ _ => trivial) (fun _ => .pure fun _ _ => trivial)) i j a hx).1

theorem post_object {h : Heap} {acc : Accepts} {o : TypesObject} {sm : SymbolOrMethodRef} (hsm : symbolForGoObject o = .ok sm) :
    Post (Computed h (.iface acc (.goObject o))) (qualifyObject acc (.iface acc (.goObject o)) sm) := by
  have hr : ∀ n, (TVal.iface acc (.goObject o)).requalify h n
      = requalifyObject n acc (.iface acc (.goObject o)) (.ok sm) := by
    intro n; rw [TVal.requalify, hsm]
  cases sm with
  | symbol s =>
    refine .bind (post_ensureImported s) fun s' => ?_
    refine .ite (fun hc => .pure fun k hk => ?_) (fun hc => .pure fun k hk => ?_)
    · exact .of (by simp) (by rw [hr, requalifyObject, if_pos (by rw [← hk]; exact hc.symm), hk])
    · exact .of (by simp) (by rw [hr, requalifyObject, if_neg (by rw [← hk]; exact fun h => hc h.symm)])
  | method m =>
    refine .bind (post_ensureImported m.type) fun s' => ?_
    refine .ite (fun hc => .pure fun k hk => ?_) (fun hc => .pure fun k hk => ?_)
    · exact .of (by simp) (by rw [hr, requalifyObject, if_pos (by rw [← hk]; exact hc.symm), hk])
    · exact .of (by simp) (by rw [hr, requalifyObject, if_neg (by rw [← hk]; exact fun h => hc h.symm)])

theorem keyEq_setMapIndex : ∀ {m : List (TVal × TVal)} {k v : TVal}, m.all (fun e => !e.1.keyEq k) = true →
    setMapIndex m k v = m ++ [(k, v)]
  | [], k, v, _ => rfl
  | e :: m, k, v, h => by
    simp only [List.all_cons, Bool.and_eq_true, Bool.not_eq_true'] at h
    rw [setMapIndex, h.1]
    simp [keyEq_setMapIndex h.2]

theorem foldl_setMapIndex : ∀ (es m : List (TVal × TVal)), keysDistinct (m ++ es) = true →
    es.foldl (fun m e => setMapIndex m e.1 e.2) m = m ++ es
  | [], m, _ => by simp
  | (k, v) :: es, m, h => by
    have h1 : m.all (fun e => !e.1.keyEq k) = true := by
      clear foldl_setMapIndex
      induction m with
      | nil => rfl
      | cons a m ih =>
        simp only [List.cons_append, keysDistinct, Bool.and_eq_true, List.all_append, List.all_cons] at h ⊢
        exact ⟨h.1.2.1, ih h.2⟩
    rw [List.foldl_cons, keyEq_setMapIndex h1, foldl_setMapIndex es _ (by simpa using h)]
    simp

/-- see `Computed` -/
def ComputedFields (h : Heap) (changed : Bool) (fs : List (Bool × TVal)) (k : Imports) (r : List (Bool × TVal) × Bool) : Prop :=
  (r.2 = false ↔ changed = false ∧ requalifyFields h k.qualifierOf fs = fs) ∧
  (flatPtrsFields fs = true → distinctKeysFields (requalifyFields h k.qualifierOf fs) = true → r.1 = requalifyFields h k.qualifierOf fs)
/-- see `Computed` -/
def ComputedElems (h : Heap) (changed : Bool) (vs : List TVal) (k : Imports) (r : List TVal × Bool) : Prop :=
  (r.2 = false ↔ changed = false ∧ requalifyElems h k.qualifierOf vs = vs) ∧
  (flatPtrsElems vs = true → distinctKeysElems (requalifyElems h k.qualifierOf vs) = true → r.1 = requalifyElems h k.qualifierOf vs)
/-- see `Computed` -/
def ComputedEntries (h : Heap) (es : List (TVal × TVal)) (k : Imports) (r : List (TVal × TVal) × Bool) : Prop :=
  (r.2 = false ↔ requalifyEntries h k.qualifierOf es = es) ∧
  (flatPtrsEntries es = true → distinctKeysEntries (requalifyEntries h k.qualifierOf es) = true → r.1 = requalifyEntries h k.qualifierOf es)

theorem post_trivial {h : Heap} {v : TVal} (hr : ∀ n, v.requalify h n = v) : Post (Computed h v) (pure (v, false)) :=
  .pure fun k => .of (by simp) (hr _)

mutual
theorem post_qualifyData (h : Heap) : ∀ (addr : Bool) (v : TVal), v.validTypes = true →
    Post (Computed h v) (qualifyData h addr v)
  | addr, .iface acc v, hv => by
    by_cases hc : v.isConv = true
    · cases v <;> simp only [TVal.isConv, Bool.false_eq_true] at hc
      case typeName t =>
        rw [qualifyData]
        exact post_converted (by simpa [TVal.validTypes, convertedValid] using hv) (fun n => by rw [TVal.requalify])
          (fun t' h => by cases h; rfl)
      case reflectType t =>
        rw [qualifyData]
        exact post_converted (by simpa [TVal.validTypes] using hv) (fun n => by rw [TVal.requalify])
          (fun t' h => by cases h)
      case goType t =>
        rw [qualifyData]
        exact post_converted (by simpa [TVal.validTypes] using hv) (fun n => by rw [TVal.requalify])
          (fun t' h => by cases h)
      case goObject o =>
        rw [qualifyData]
        cases hsm : symbolForGoObject o with
        | ok sm =>
          have : (IM.lift (Outcome.ok sm) >>= fun sm => qualifyObject acc (TVal.iface acc (TVal.goObject o)) sm) =
              qualifyObject acc (TVal.iface acc (TVal.goObject o)) sm := by
            funext i
            rw [IM.bind_ok (IM.lift_apply _ _)]
          rw [this]
          exact post_object hsm
        | panic => simp [TVal.validTypes, hsm, Outcome.isOk] at hv
        | hang => simp [TVal.validTypes, hsm, Outcome.isOk] at hv
      case goPackage g =>
        rw [qualifyData]
        have : (IM.lift (packageForGoType (some g)) >>= fun p => (do
            let n ← registerPackage p
            if n ≠ p.name ∧ acc.package then
              pure (.iface acc (.package { name := n, importPath := p.importPath }), true)
            else pure (.iface acc (.goPackage g), false))) = (do
            let n ← registerPackage ⟨g.path, g.name⟩
            if n ≠ g.name ∧ acc.package then
              pure (.iface acc (.package { name := n, importPath := g.path }), true)
            else pure (.iface acc (.goPackage g), false) : IM (TVal × Bool)) := by
          funext i
          rw [packageForGoType, IM.bind_ok (IM.lift_apply _ _)]
        rw [this]
        refine .bind (post_registerPackage _) fun n => ?_
        refine .ite (fun hc => .pure fun k hk => ?_) (fun hc => .pure fun k hk => ?_)
        · exact .of (by simp) (by rw [TVal.requalify, if_pos (by rw [← hk]; exact hc.symm), hk])
        · exact .of (by simp) (by rw [TVal.requalify, if_neg (by rw [← hk]; exact fun h => hc h.symm)])
    · have hc : v.isConv = false := by simpa using hc
      rw [qualifyData_iface _ _ _ hc]
      rw [validTypes_iface _ hc] at hv
      refine .bind (post_qualifyData h false v hv) fun r => .pure fun k hk => ?_
      obtain ⟨v', c⟩ := r
      refine ⟨?_, fun hf hd => ?_⟩
      · rw [requalify_iface _ _ _ hc]
        simpa using hk.1
      · rw [requalify_iface _ _ _ hc] at hd ⊢
        exact congrArg _ (hk.2 (by simpa [TVal.flatPtrs] using hf) (by simpa [TVal.distinctKeys] using hd))
  | addr, .package p, hv => by
    rw [qualifyData]
    refine .bind (post_registerPackage _) fun n => ?_
    refine .ite (fun hc => .pure fun k hk => ?_) (fun hc => .pure fun k hk => ?_)
    · refine .of ?_ (by rw [TVal.requalify, Package.requalify, ← hk])
      obtain ⟨a, b⟩ := p
      simpa using hc
    · simp only [ne_eq, not_not] at hc
      exact .of (by simp) (by rw [TVal.requalify, Package.requalify, ← hk, hc])
  | addr, .symbol s, hv => by
    rw [qualifyData]
    refine .bind (post_ensureImported s) fun n => .pure fun k hk => ?_
    exact .of (by simp) (by rw [TVal.requalify, hk])
  | addr, .mref m, hv => by
    rw [qualifyData]
    refine .bind (post_ensureImported m.type) fun n => .pure fun k hk => ?_
    refine .of ?_ (by rw [TVal.requalify, hk])
    obtain ⟨a, b⟩ := m
    simp
  | addr, .signature s, hv => by
    rw [qualifyData]
    refine .bind (post_qualifySignature hv) fun r => ?_
    obtain ⟨s', c⟩ := r
    refine .pure fun k hk => ?_
    simp only [Prod.mk.injEq] at hk
    refine .of ?_ (by rw [TVal.requalify, hk.1])
    rw [hk.1, hk.2, changes_sig, TVal.signature.injEq]
  | addr, .spec r, _ => by
    rw [qualifyData]
    cases hp : r.parent h with
    | ok q =>
      rw [lift_bind]
      cases q with
      | none =>
        exact post_trivial fun n => by rw [TVal.requalify, SpecRef.package, hp]
      | some p =>
        dsimp only
        cases hf : h.files p with
        | none => exact .bind_panic (by rw [deref, hf]; rfl)
        | some f =>
          rw [deref_some hf, lift_bind]
          refine .bind (post_registerPackage _) fun n => ?_
          have hr : ∀ k : Imports, (TVal.spec r).requalify h k.qualifierOf =
              if k.qualifierOf f.package.importPath = f.package.name then .spec r
              else .specCopy r (k.qualifierOf f.package.importPath) := by
            intro k
            rw [TVal.requalify, SpecRef.package, hp]
            simp [hf]
          refine .ite (fun hc => .pure fun k hk => ?_) (fun hc => .pure fun k hk => ?_)
          · exact .of (by simp) (by rw [hr, ← hk, if_neg hc])
          · exact .of (by simp) (by rw [hr, ← hk, if_pos (by simpa using hc)])
    | panic => exact .bind_panic rfl
    | hang => exact .bind_panic rfl
  | addr, .specCopy r p, _ => by
    rw [qualifyData]
    refine .bind (post_registerPackage _) fun n => ?_
    refine .ite (fun hc => .pure fun k hk => ?_) (fun hc => .pure fun k hk => ?_)
    · exact .of (by simpa using hc) (by rw [TVal.requalify, ← hk])
    · simp only [ne_eq, not_not] at hc
      exact .of (by simp) (by rw [TVal.requalify, ← hk, hc])
  | addr, .embed e, hv => by
    rw [qualifyData]
    refine .bind (F := fun k r => r = ({ e with type := e.type.requalify k.qualifierOf },
      decide (e.type ≠ e.type.requalify k.qualifierOf))) ?_ fun r => ?_
    · exact .bind (post_ensureImported e.type) fun n => .pure fun k hk => by rw [hk]
    · obtain ⟨e', c⟩ := r
      refine .pure fun k hk => ?_
      simp only [Prod.mk.injEq] at hk
      refine .of ?_ (by rw [TVal.requalify, hk.1])
      rw [hk.1, hk.2]
      obtain ⟨a, b, c⟩ := e
      simp only [ne_eq, decide_not, Bool.not_eq_false', decide_eq_true_eq, TVal.embed.injEq,
        InterfaceEmbed.mk.injEq, true_and, and_true]
      exact eq_comm
  | addr, .method m, hv => by
    rw [qualifyData]
    refine .bind (F := fun k r => r = ({ m with signature := m.signature.mapSymbols (·.requalify k.qualifierOf) },
      changes k.qualifierOf m.signature.symbols)) ?_ fun r => ?_
    · refine .bind (post_qualifySignature hv) fun r => ?_
      obtain ⟨s', c⟩ := r
      refine .pure fun k hk => ?_
      simp only [Prod.mk.injEq] at hk
      rw [hk.1, hk.2]
    · obtain ⟨m', c⟩ := r
      refine .pure fun k hk => ?_
      simp only [Prod.mk.injEq] at hk
      refine .of ?_ (by rw [TVal.requalify, hk.1])
      rw [hk.1, hk.2, changes_sig]
      obtain ⟨a, b, c⟩ := m
      simp
  | addr, .ptr v, hv => by
    rw [qualifyData]
    refine .bind (post_qualifyData h true v
      (by simpa [TVal.validTypes] using hv)) fun r => .pure fun k hk => ?_
    obtain ⟨v', c⟩ := r
    refine ⟨?_, fun hf hd => ?_⟩
    · rw [TVal.requalify]
      simpa using hk.1
    · simp only [TVal.flatPtrs, Bool.and_eq_true, Bool.not_eq_true'] at hf
      rw [TVal.requalify] at hd ⊢
      have := hk.2 hf.2 (by simpa [TVal.distinctKeys] using hd)
      dsimp only at this ⊢
      rw [this, inIface_requalify _ _ hf.1, ite_self]
  | addr, .struct fs, hv => by
    rw [qualifyData]
    refine .bind (post_qualifyDataFields h addr false false fs
      (by simpa [TVal.validTypes] using hv)) fun r => .pure fun k hk => ?_
    obtain ⟨v', c⟩ := r
    refine ⟨?_, fun hf hd => ?_⟩
    · rw [TVal.requalify]
      simpa using hk.1
    · rw [TVal.requalify] at hd ⊢
      exact congrArg _ (hk.2 (by simpa [TVal.flatPtrs] using hf) (by simpa [TVal.distinctKeys] using hd))
  | addr, .array vs, hv => by
    rw [qualifyData]
    refine .bind (post_qualifyDataElems h addr addr false vs
      (by simpa [TVal.validTypes] using hv)) fun r => .pure fun k hk => ?_
    obtain ⟨v', c⟩ := r
    refine ⟨?_, fun hf hd => ?_⟩
    · rw [TVal.requalify]
      simpa using hk.1
    · rw [TVal.requalify] at hd ⊢
      exact congrArg _ (hk.2 (by simpa [TVal.flatPtrs] using hf) (by simpa [TVal.distinctKeys] using hd))
  | addr, .slice vs, hv => by
    rw [qualifyData]
    refine .bind (post_qualifyDataElems h true true false vs
      (by simpa [TVal.validTypes] using hv)) fun r => .pure fun k hk => ?_
    obtain ⟨v', c⟩ := r
    refine ⟨?_, fun hf hd => ?_⟩
    · rw [TVal.requalify]
      simpa using hk.1
    · rw [TVal.requalify] at hd ⊢
      exact congrArg _ (hk.2 (by simpa [TVal.flatPtrs] using hf) (by simpa [TVal.distinctKeys] using hd))
  | addr, .map es, hv => by
    rw [qualifyData]
    refine .bind (post_qualifyDataEntries h es
      (by simpa [TVal.validTypes] using hv)) fun r => ?_
    obtain ⟨es', c⟩ := r
    refine .ite (fun hc => .pure fun k hk => ?_) (fun hc => .pure fun k hk => ?_)
    · refine ⟨?_, fun hf hd => ?_⟩
      · rw [TVal.requalify, TVal.map.injEq, ← hk.1]
        simp [hc]
      · rw [TVal.requalify] at hd ⊢
        simp only [TVal.distinctKeys, Bool.and_eq_true] at hd
        have := hk.2 (by simpa [TVal.flatPtrs] using hf) hd.2
        dsimp only at this ⊢
        rw [this, foldl_setMapIndex _ _ (by simpa using hd.1), List.nil_append]
    · have hc : c = false := by simpa using hc
      have := hk.1.1 hc
      exact .of (by simp) (by rw [TVal.requalify, this])
  | addr, .scalar _, _ => by
    rw [qualifyData]
    · exact post_trivial fun n => by rw [TVal.requalify] <;> simp
    all_goals simp
  | addr, .imports, _ => by
    rw [qualifyData]
    · exact post_trivial fun n => by rw [TVal.requalify] <;> simp
    all_goals simp
  | addr, .typeName _, _ => by
    rw [qualifyData]
    · exact post_trivial fun n => by rw [TVal.requalify] <;> simp
    all_goals simp
  | addr, .reflectType _, _ => by
    rw [qualifyData]
    · exact post_trivial fun n => by rw [TVal.requalify] <;> simp
    all_goals simp
  | addr, .goType _, _ => by
    rw [qualifyData]
    · exact post_trivial fun n => by rw [TVal.requalify] <;> simp
    all_goals simp
  | addr, .goObject _, _ => by
    rw [qualifyData]
    · exact post_trivial fun n => by rw [TVal.requalify] <;> simp
    all_goals simp
  | addr, .goPackage _, _ => by
    rw [qualifyData]
    · exact post_trivial fun n => by rw [TVal.requalify] <;> simp
    all_goals simp
theorem post_qualifyDataFields (h : Heap) (addr : Bool) : ∀ (changed hidden : Bool) (fs : List (Bool × TVal)),
    validTypesFields fs = true →
    Post (ComputedFields h changed fs) (qualifyDataFields h addr changed hidden fs)
  | changed, hidden, [], _ => by
    rw [qualifyDataFields]
    exact .pure fun k => ⟨by simp [requalifyFields], by simp [requalifyFields]⟩
  | changed, hidden, (e, v) :: fs, hv => by
    rw [qualifyDataFields]
    simp only [validTypesFields, Bool.and_eq_true] at hv
    refine .ite (fun _ => .panic) fun _ => ?_
    refine .bind (post_qualifyData h addr v hv.1) fun r => ?_
    obtain ⟨v', c⟩ := r
    refine .ite (fun _ => .panic) fun _ => ?_
    refine (Post.bind (post_qualifyDataFields h addr (changed || c) (hidden || !e) fs hv.2) fun r =>
      .pure (F := fun k b => _ → Computed h v k (v', c) → ComputedFields h changed ((e, v) :: fs) k b) fun k hk hk' => ?_)
    obtain ⟨fs', c'⟩ := r
    obtain ⟨a1, a2⟩ := hk
    obtain ⟨b1, b2⟩ := hk'
    dsimp only at a1 a2 b1 b2
    refine ⟨?_, fun hf hd => ?_⟩
    · simp only [requalifyFields, List.cons.injEq, Prod.mk.injEq, true_and]
      rw [a1, Bool.or_eq_false_iff, b1, and_assoc]
    · simp only [requalifyFields, distinctKeysFields, flatPtrsFields, Bool.and_eq_true] at hf hd ⊢
      rw [a2 hf.2 hd.2, b2 hf.1 hd.1]
theorem post_qualifyDataElems (h : Heap) (addr sl : Bool) : ∀ (changed : Bool) (vs : List TVal),
    validTypesElems vs = true →
    Post (ComputedElems h changed vs) (qualifyDataElems h addr sl changed vs)
  | changed, [], _ => by
    rw [qualifyDataElems]
    exact .pure fun k => ⟨by simp [requalifyElems], by simp [requalifyElems]⟩
  | changed, v :: vs, hv => by
    rw [qualifyDataElems]
    simp only [validTypesElems, Bool.and_eq_true] at hv
    refine .bind (post_qualifyData h addr v hv.1) fun r => ?_
    obtain ⟨v', c⟩ := r
    refine .ite (fun _ => .panic) fun _ => ?_
    refine (Post.bind (post_qualifyDataElems h addr sl (changed || c) vs hv.2) fun r =>
      .pure (F := fun k b => _ → Computed h v k (v', c) → ComputedElems h changed (v :: vs) k b) fun k hk hk' => ?_)
    obtain ⟨fs', c'⟩ := r
    obtain ⟨a1, a2⟩ := hk
    obtain ⟨b1, b2⟩ := hk'
    dsimp only at a1 a2 b1 b2
    refine ⟨?_, fun hf hd => ?_⟩
    · simp only [requalifyElems, List.cons.injEq]
      rw [a1, Bool.or_eq_false_iff, b1, and_assoc]
    · simp only [requalifyElems, distinctKeysElems, flatPtrsElems, Bool.and_eq_true] at hf hd ⊢
      rw [a2 hf.2 hd.2, b2 hf.1 hd.1]
theorem post_qualifyDataEntries (h : Heap) : ∀ (es : List (TVal × TVal)),
    validTypesEntries es = true →
    Post (ComputedEntries h es) (qualifyDataEntries h es)
  | [], _ => by
    rw [qualifyDataEntries]
    exact .pure fun k => ⟨by simp [requalifyEntries], by simp [requalifyEntries]⟩
  | (a, v) :: es, hv => by
    rw [qualifyDataEntries]
    simp only [validTypesEntries, Bool.and_eq_true] at hv
    refine .bind (post_qualifyData h false a hv.1.1) fun r => ?_
    obtain ⟨a', ca⟩ := r
    refine .bind (post_qualifyData h false v hv.1.2) fun r => ?_
    obtain ⟨v', c⟩ := r
    refine .ite (fun _ => .panic) fun _ => ?_
    refine (Post.bind (post_qualifyDataEntries h es hv.2) fun r =>
      .pure (F := fun k b => _ → Computed h v k (v', c) → Computed h a k (a', ca) → ComputedEntries h ((a, v) :: es) k b)
        fun k hk hk' hk'' => ?_)
    obtain ⟨fs', c'⟩ := r
    obtain ⟨a1, a2⟩ := hk
    obtain ⟨b1, b2⟩ := hk'
    obtain ⟨d1, d2⟩ := hk''
    dsimp only at a1 a2 b1 b2 d1 d2
    refine ⟨?_, fun hf hd => ?_⟩
    · simp only [requalifyEntries, List.cons.injEq, Prod.mk.injEq, Bool.or_eq_false_iff]
      rw [a1, b1, d1]
    · simp only [requalifyEntries, distinctKeysEntries, flatPtrsEntries, Bool.and_eq_true] at hf hd ⊢
      rw [a2 hf.2 hd.2, b2 hf.1.2 hd.1.2, d2 hf.1.1 hd.1.1]
end

/-! ### Maps with plain keys -/

theorem requalify_scalar (H : Heap) (n : GoString → GoString) (x : Nat) : (TVal.scalar x).requalify H n = .scalar x := by
  rw [TVal.requalify] <;> simp

theorem keysPlain_requalify (H : Heap) (n : GoString → GoString) : ∀ es, keysPlain es = true →
    (requalifyEntries H n es).map (·.1) = es.map (·.1)
  | [], _ => by simp [requalifyEntries]
  | (k, v) :: es, h => by
    cases k <;> simp only [keysPlain, Bool.false_eq_true] at h
    simp [requalifyEntries, requalify_scalar, keysPlain_requalify H n es h]

theorem keysDistinct_congr : ∀ {es es' : List (TVal × TVal)}, es.map (·.1) = es'.map (·.1) →
    keysDistinct es = keysDistinct es'
  | [], [], _ => rfl
  | [], _ :: _, h => by simp at h
  | _ :: _, [], h => by simp at h
  | (k, v) :: es, (k', v') :: es', h => by
    simp only [List.map_cons, List.cons.injEq] at h
    obtain ⟨rfl, h⟩ := h
    have e : ∀ l : List (TVal × TVal), l.all (fun x => !k.keyEq x.1) = (l.map (·.1)).all (fun x => !k.keyEq x) := by
      intro l; simp [List.all_map, Function.comp_def]
    simp only [keysDistinct, e, h, keysDistinct_congr h]

theorem distinctKeys_converted {n : GoString → GoString} {acc : Accepts} {v : TVal} {o : Outcome TypeName}
    (h : v.distinctKeys = true) : (requalifyConverted n acc (.iface acc v) o).distinctKeys = true := by
  unfold requalifyConverted
  split
  · split <;> simp [TVal.distinctKeys, h]
  · simp [TVal.distinctKeys, h]

theorem distinctKeys_object {n : GoString → GoString} {acc : Accepts} {v : TVal} {o : Outcome SymbolOrMethodRef}
    (h : v.distinctKeys = true) : (requalifyObject n acc (.iface acc v) o).distinctKeys = true := by
  unfold requalifyObject
  split
  · split <;> simp [TVal.distinctKeys, h]
  · split <;> simp [TVal.distinctKeys, h]
  · simp [TVal.distinctKeys, h]

mutual
theorem distinctKeys_requalify (H : Heap) (n : GoString → GoString) : ∀ v : TVal, v.plainKeys = true →
    v.distinctKeys = true → (v.requalify H n).distinctKeys = true
  | .iface acc v, hp, hd => by
    by_cases hc : v.isConv = true
    · cases v <;> simp only [TVal.isConv, Bool.false_eq_true] at hc
      case typeName | reflectType | goType =>
        rw [TVal.requalify]; exact distinctKeys_converted rfl
      case goObject => rw [TVal.requalify]; exact distinctKeys_object rfl
      case goPackage => rw [TVal.requalify]; split <;> rfl
    · have hc : v.isConv = false := by simpa using hc
      rw [requalify_iface _ _ _ hc, TVal.distinctKeys]
      exact distinctKeys_requalify H n v (by simpa [TVal.plainKeys] using hp) (by simpa [TVal.distinctKeys] using hd)
  | .ptr v, hp, hd => by
    rw [TVal.requalify, TVal.distinctKeys]
    exact distinctKeys_requalify H n v (by simpa [TVal.plainKeys] using hp) (by simpa [TVal.distinctKeys] using hd)
  | .struct v, hp, hd => by
    rw [TVal.requalify, TVal.distinctKeys]
    exact distinctKeys_requalifyFields H n v (by simpa [TVal.plainKeys] using hp) (by simpa [TVal.distinctKeys] using hd)
  | .array v, hp, hd => by
    rw [TVal.requalify, TVal.distinctKeys]
    exact distinctKeys_requalifyElems H n v (by simpa [TVal.plainKeys] using hp) (by simpa [TVal.distinctKeys] using hd)
  | .slice v, hp, hd => by
    rw [TVal.requalify, TVal.distinctKeys]
    exact distinctKeys_requalifyElems H n v (by simpa [TVal.plainKeys] using hp) (by simpa [TVal.distinctKeys] using hd)
  | .map v, hp, hd => by
    simp only [TVal.requalify, TVal.distinctKeys, TVal.plainKeys, Bool.and_eq_true] at hp hd ⊢
    exact ⟨(keysDistinct_congr (keysPlain_requalify H n v hp.1)).trans hd.1,
      distinctKeys_requalifyEntries H n v hp.1 hp.2 hd.2⟩
  | .package _, _, _ => by rw [TVal.requalify]; rfl
  | .symbol _, _, _ => by rw [TVal.requalify]; rfl
  | .mref _, _, _ => by rw [TVal.requalify]; rfl
  | .signature _, _, _ => by rw [TVal.requalify]; rfl
  | .embed _, _, _ => by rw [TVal.requalify]; rfl
  | .method _, _, _ => by rw [TVal.requalify]; rfl
  | .spec r, _, _ => by
    rw [TVal.requalify]
    cases r.package H with
    | none => rfl
    | some p => dsimp only; split <;> rfl
  | .specCopy _ _, _, _ => by rw [TVal.requalify]; rfl
  | .scalar _, _, _ => by rw [TVal.requalify] <;> simp [TVal.distinctKeys]
  | .imports, _, _ => by rw [TVal.requalify] <;> simp [TVal.distinctKeys]
  | .typeName _, _, _ => by rw [TVal.requalify] <;> simp [TVal.distinctKeys]
  | .reflectType _, _, _ => by rw [TVal.requalify] <;> simp [TVal.distinctKeys]
  | .goType _, _, _ => by rw [TVal.requalify] <;> simp [TVal.distinctKeys]
  | .goObject _, _, _ => by rw [TVal.requalify] <;> simp [TVal.distinctKeys]
  | .goPackage _, _, _ => by rw [TVal.requalify] <;> simp [TVal.distinctKeys]
theorem distinctKeys_requalifyFields (H : Heap) (n : GoString → GoString) : ∀ v, plainKeysFields v = true →
    distinctKeysFields v = true → distinctKeysFields (requalifyFields H n v) = true
  | [], _, _ => rfl
  | (e, v) :: fs, hp, hd => by
    simp only [requalifyFields, distinctKeysFields, plainKeysFields, Bool.and_eq_true] at hp hd ⊢
    exact ⟨distinctKeys_requalify H n v hp.1 hd.1, distinctKeys_requalifyFields H n fs hp.2 hd.2⟩
theorem distinctKeys_requalifyElems (H : Heap) (n : GoString → GoString) : ∀ v, plainKeysElems v = true →
    distinctKeysElems v = true → distinctKeysElems (requalifyElems H n v) = true
  | [], _, _ => rfl
  | v :: fs, hp, hd => by
    simp only [requalifyElems, distinctKeysElems, plainKeysElems, Bool.and_eq_true] at hp hd ⊢
    exact ⟨distinctKeys_requalify H n v hp.1 hd.1, distinctKeys_requalifyElems H n fs hp.2 hd.2⟩
theorem distinctKeys_requalifyEntries (H : Heap) (n : GoString → GoString) : ∀ v, keysPlain v = true → plainKeysEntries v = true →
    distinctKeysEntries v = true → distinctKeysEntries (requalifyEntries H n v) = true
  | [], _, _, _ => rfl
  | (k, v) :: fs, hk, hp, hd => by
    cases k <;> simp only [keysPlain, Bool.false_eq_true] at hk
    simp only [requalifyEntries, distinctKeysEntries, plainKeysEntries, Bool.and_eq_true] at hp hd ⊢
    exact ⟨⟨by rw [requalify_scalar]; rfl, distinctKeys_requalify H n v hp.1 hd.1.2⟩,
      distinctKeys_requalifyEntries H n fs hk hp.2 hd.2⟩
end

/-! ### It returns -/

/-- `x` never panics or loops. -/
def Returns {α} (x : IM α) : Prop := ∀ i, ∃ a j, x i = (.ok a, j)

namespace Returns
variable {α β : Type}

theorem pure (a : α) : Returns (pure a : IM α) := fun i => ⟨a, i, rfl⟩

theorem bind {x : IM α} {f : α → IM β} (hx : Returns x) (hf : ∀ a, Returns (f a)) : Returns (x >>= f) := by
  intro i
  obtain ⟨a, j, h1⟩ := hx i
  obtain ⟨b, k, h2⟩ := hf a j
  exact ⟨b, k, by rw [IM.bind_ok h1, h2]⟩

theorem ite {c : Prop} [Decidable c] {x y : IM α} (hx : Returns x) (hy : Returns y) :
    Returns (if c then x else y) := by split <;> assumption

theorem lift {o : Outcome α} (h : o.isOk = true) : Returns (IM.lift o) := by
  intro i
  cases o with
  | ok a => exact ⟨a, i, by simp⟩
  | panic => simp [Outcome.isOk] at h
  | hang => simp [Outcome.isOk] at h

end Returns

theorem returns_registerPackage (p : Package) : Returns (registerPackage p) := by
  intro i
  by_cases ho : p.importPath = i.pkgPath
  · exact ⟨_, _, by rw [registerPackage, registerImportForPackage, registerImport, IM.bind_ok (prefixForPackage_own ho)]; rfl⟩
  · cases hg : i.importsByPath.get p.importPath with
    | some d => exact ⟨_, _, by rw [registerPackage, registerImportForPackage, registerImport, IM.bind_ok (prefixForPackage_known ho hg)]; rfl⟩
    | none =>
      obtain ⟨q, _, hq⟩ := prefixForPackage_new (n := p.name) ho hg
      exact ⟨_, _, by rw [registerPackage, registerImportForPackage, registerImport, IM.bind_ok hq]; rfl⟩

theorem returns_ensureImported (s : Symbol) : Returns (ensureImported s) := by
  intro i
  obtain ⟨j, h1, _⟩ := qualify_ok s true i (.inl rfl)
  exact ⟨_, _, h1⟩

theorem returns_qualifyType {t : TypeName} (hv : t.valid = true) : Returns (qualifyType true t) := by
  intro i
  obtain ⟨j, h1, _⟩ := qualifyType_ok true t i hv (.inl rfl)
  exact ⟨_, _, h1⟩

theorem returns_qualifySignature {t : Signature} (hv : t.valid = true) : Returns (qualifySignature true t) := by
  intro i
  obtain ⟨j, h1, _⟩ := qualifySignature_ok true t i hv (.inl rfl)
  exact ⟨_, _, h1⟩

theorem returns_converted {acc : Accepts} {o : TVal} {t : Outcome TypeName} (hv : convertedValid t = true) :
    Returns (qualifyConverted acc o t) := by
  cases t with
  | ok t =>
    intro i
    obtain ⟨a, j, h1⟩ := returns_qualifyType hv i
    rw [qualifyConverted, IM.bind_ok (IM.lift_apply _ _), IM.bind_ok h1]
    exact Returns.ite (.pure _) (.pure _) j
  | panic => simp [convertedValid] at hv
  | hang => simp [convertedValid] at hv

theorem returns_object (acc : Accepts) (o : TVal) (s : SymbolOrMethodRef) : Returns (qualifyObject acc o s) := by
  cases s <;> exact .bind (returns_ensureImported _) fun _ => .ite (.pure _) (.pure _)

theorem packageForGoType_isOk (g : TypesPackage) : (packageForGoType (some g)).isOk = true := rfl

mutual
theorem returns_qualifyData (h : Heap) : ∀ (addr : Bool) (v : TVal), v.specsPresent h = true → v.validTypes = true →
    v.settable addr = true → v.flatPtrs = true → Returns (qualifyData h addr v)
  | addr, .iface acc v, hs, hv, ha, hf => by
    by_cases hc : v.isConv = true
    · cases v <;> simp only [TVal.isConv, Bool.false_eq_true] at hc
      case typeName t =>
        rw [qualifyData]
        exact returns_converted (by simpa [TVal.validTypes, convertedValid] using hv)
      case reflectType t =>
        rw [qualifyData]
        exact returns_converted (by simpa [TVal.validTypes] using hv)
      case goType t =>
        rw [qualifyData]
        exact returns_converted (by simpa [TVal.validTypes] using hv)
      case goObject o =>
        rw [qualifyData]
        exact .bind (.lift (by simpa [TVal.validTypes] using hv)) fun _ => returns_object _ _ _
      case goPackage g =>
        rw [qualifyData]
        exact .bind (.lift (packageForGoType_isOk g)) fun _ => .bind (returns_registerPackage _) fun _ =>
          .ite (.pure _) (.pure _)
    · have hc : v.isConv = false := by simpa using hc
      rw [qualifyData_iface _ _ _ hc]
      rw [validTypes_iface _ hc] at hv
      exact .bind (returns_qualifyData h false v (by simpa [TVal.specsPresent] using hs) hv
        (by simpa [TVal.settable] using ha) (by simpa [TVal.flatPtrs] using hf)) fun r => .pure _
  | addr, .package p, _, _, _, hf => by
    rw [qualifyData]
    exact .bind (returns_registerPackage _) fun _ => .ite (.pure _) (.pure _)
  | addr, .symbol s, _, _, _, hf => by
    rw [qualifyData]
    exact .bind (returns_ensureImported s) fun _ => .pure _
  | addr, .mref m, _, _, _, hf => by
    rw [qualifyData]
    exact .bind (returns_ensureImported _) fun _ => .pure _
  | addr, .signature s, _, hv, _, hf => by
    rw [qualifyData]
    exact .bind (returns_qualifySignature hv) fun _ => .pure _
  | addr, .spec r, hs, _, _, hf => by
    rw [qualifyData]
    rw [TVal.specsPresent, SpecRef.present] at hs
    cases hp : r.parent h with
    | ok q =>
      rw [hp] at hs
      rw [lift_bind]
      cases q with
      | none => exact .pure _
      | some p =>
        dsimp only at hs ⊢
        cases hf : h.files p with
        | none => rw [hf] at hs; simp at hs
        | some f =>
          rw [deref_some hf, lift_bind]
          exact .bind (returns_registerPackage _) fun _ => .ite (.pure _) (.pure _)
    | panic => rw [hp] at hs; simp at hs
    | hang => rw [hp] at hs; simp at hs
  | addr, .specCopy _ _, hs, _, _, hf => by
    rw [qualifyData]
    exact .bind (returns_registerPackage _) fun _ => .ite (.pure _) (.pure _)
  | addr, .embed e, _, _, _, hf => by
    rw [qualifyData]
    exact .bind (.bind (returns_ensureImported _) fun _ => .pure _) fun _ => .pure _
  | addr, .method m, _, hv, _, hf => by
    rw [qualifyData]
    exact .bind (.bind (returns_qualifySignature hv) fun _ => .pure _) fun _ => .pure _
  | addr, .ptr v, hs, hv, ha, hf => by
    rw [qualifyData]
    exact .bind (returns_qualifyData h true v (by simpa [TVal.specsPresent] using hs)
      (by simpa [TVal.validTypes] using hv) (by simpa [TVal.settable] using ha) (by simp [TVal.flatPtrs] at hf; exact hf.2)) fun _ => .pure _
  | addr, .struct fs, hs, hv, ha, hf => by
    rw [qualifyData]
    exact .bind (returns_qualifyDataFields h addr false false fs (by simpa [TVal.specsPresent] using hs)
      (by simpa [TVal.validTypes] using hv) (by simpa [TVal.settable] using ha) (by simpa [TVal.flatPtrs] using hf) rfl) fun _ => .pure _
  | addr, .array vs, hs, hv, ha, hf => by
    simp only [TVal.settable, Bool.and_eq_true] at ha
    rw [qualifyData]
    exact .bind (returns_qualifyDataElems h addr addr ha.1 false vs (by simpa [TVal.specsPresent] using hs)
      (by simpa [TVal.validTypes] using hv) ha.2 (by simpa [TVal.flatPtrs] using hf)) fun _ => .pure _
  | addr, .slice vs, hs, hv, ha, hf => by
    rw [qualifyData]
    exact .bind (returns_qualifyDataElems h true true rfl false vs (by simpa [TVal.specsPresent] using hs)
      (by simpa [TVal.validTypes] using hv) (by simpa [TVal.settable] using ha) (by simpa [TVal.flatPtrs] using hf)) fun _ => .pure _
  | addr, .map es, hs, hv, ha, hf => by
    rw [qualifyData]
    exact .bind (returns_qualifyDataEntries h es (by simpa [TVal.specsPresent] using hs)
      (by simpa [TVal.validTypes] using hv) (by simpa [TVal.settable] using ha) (by simpa [TVal.flatPtrs] using hf)) fun _ =>
      .ite (.pure _) (.pure _)
  | addr, .scalar _, _, _, _, hf => by
    rw [qualifyData]
    · exact .pure _
    all_goals simp
  | addr, .imports, _, _, _, hf => by
    rw [qualifyData]
    · exact .pure _
    all_goals simp
  | addr, .typeName _, _, _, _, hf => by
    rw [qualifyData]
    · exact .pure _
    all_goals simp
  | addr, .reflectType _, _, _, _, hf => by
    rw [qualifyData]
    · exact .pure _
    all_goals simp
  | addr, .goType _, _, _, _, hf => by
    rw [qualifyData]
    · exact .pure _
    all_goals simp
  | addr, .goObject _, _, _, _, hf => by
    rw [qualifyData]
    · exact .pure _
    all_goals simp
  | addr, .goPackage _, _, _, _, hf => by
    rw [qualifyData]
    · exact .pure _
    all_goals simp
theorem returns_qualifyDataFields (h : Heap) (addr : Bool) : ∀ (changed hidden : Bool) (fs : List (Bool × TVal)),
    specsPresentFields h fs = true → validTypesFields fs = true → settableFields addr fs = true → flatPtrsFields fs = true → hidden = false →
    Returns (qualifyDataFields h addr changed hidden fs)
  | changed, hidden, [], _, _, _, _, _ => by
    rw [qualifyDataFields]
    exact .pure _
  | changed, hidden, (e, v) :: fs, hs, hv, ha, hf, hh => by
    rw [qualifyDataFields]
    simp only [specsPresentFields, validTypesFields, settableFields, flatPtrsFields, Bool.and_eq_true] at hs hv ha hf
    rw [if_neg (by simp [ha.1.1])]
    refine .bind (returns_qualifyData h addr v hs.1 hv.1 ha.1.2 hf.1) fun r => ?_
    dsimp only
    rw [if_neg (by simp [ha.1.1, hh, ifacePtr_of_flatPtrs hf.1])]
    exact .bind (returns_qualifyDataFields h addr _ _ fs hs.2 hv.2 ha.2 hf.2 (by simp [hh, ha.1.1])) fun _ => .pure _
theorem returns_qualifyDataElems (h : Heap) (addr sl : Bool) (hsl : sl = true) : ∀ (changed : Bool) (vs : List TVal),
    specsPresentElems h vs = true → validTypesElems vs = true → settableElems addr vs = true → flatPtrsElems vs = true →
    Returns (qualifyDataElems h addr sl changed vs)
  | changed, [], _, _, _, _ => by
    rw [qualifyDataElems]
    exact .pure _
  | changed, v :: vs, hs, hv, ha, hf => by
    rw [qualifyDataElems]
    simp only [specsPresentElems, validTypesElems, settableElems, flatPtrsElems, Bool.and_eq_true] at hs hv ha hf
    refine .bind (returns_qualifyData h addr v hs.1 hv.1 ha.1 hf.1) fun r => ?_
    dsimp only
    rw [if_neg (by simp [hsl, ifacePtr_of_flatPtrs hf.1])]
    exact .bind (returns_qualifyDataElems h addr sl hsl _ vs hs.2 hv.2 ha.2 hf.2) fun _ => .pure _
theorem returns_qualifyDataEntries (h : Heap) : ∀ (es : List (TVal × TVal)),
    specsPresentEntries h es = true → validTypesEntries es = true → settableEntries es = true → flatPtrsEntries es = true →
    Returns (qualifyDataEntries h es)
  | [], _, _, _, _ => by
    rw [qualifyDataEntries]
    exact .pure _
  | (a, v) :: es, hs, hv, ha, hf => by
    rw [qualifyDataEntries]
    simp only [specsPresentEntries, validTypesEntries, settableEntries, flatPtrsEntries, Bool.and_eq_true] at hs hv ha hf
    refine .bind (returns_qualifyData h false a hs.1.1 hv.1.1 ha.1.1 hf.1.1) fun _ => ?_
    refine .bind (returns_qualifyData h false v hs.1.2 hv.1.2 ha.1.2 hf.1.2) fun _ => ?_
    dsimp only
    rw [if_neg (by simp [ifacePtr_of_flatPtrs hf.1.1, ifacePtr_of_flatPtrs hf.1.2])]
    exact .bind (returns_qualifyDataEntries h es hs.2 hv.2 ha.2 hf.2) fun _ => .pure _
end

end Gopoet
