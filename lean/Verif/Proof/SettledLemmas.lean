import Verif.Proof.HeapLemmas
/-!
# Qualified values: their package names are the names of the imports, and qualifying them again does
nothing, now or later
-/

namespace Gopoet
open Imports

theorem IM.bind_eq_ok {α β} {x : IM α} {f : α → IM β} {i k : Imports} {b : β}
    (h : (x >>= f) i = (.ok b, k)) : ∃ a j, x i = (.ok a, j) ∧ f a j = (.ok b, k) := by
  rw [IM.bind_apply] at h
  rcases hx : x i with ⟨_ | _ | _, j⟩ <;> rw [hx] at h
  · exact ⟨_, _, rfl, h⟩
  · simp at h
  · simp at h

/-- The package name is the one that the imports use for the path. -/
def NamedIn (i : Imports) (pk : Package) : Prop :=
  (pk.importPath = i.pkgPath ∧ pk.name = []) ∨
  (pk.importPath ≠ i.pkgPath ∧ ∃ d, i.importsByPath.get pk.importPath = some d ∧
    d.packageName = pk.name)

/-- The same, or no package at all. -/
def QPkg (i : Imports) (pk : Package) : Prop := pk = ⟨[], []⟩ ∨ NamedIn i pk

theorem Ext.named {i j : Imports} (h : Ext i j) {pk : Package} (hp : NamedIn i pk) : NamedIn j pk := by
  rcases hp with ⟨a, b⟩ | ⟨a, d, b, c⟩
  · exact .inl ⟨a.trans h.own.symm, b⟩
  · exact .inr ⟨h.own ▸ a, d, h.keeps _ _ b, c⟩

theorem Ext.qpkg {i j : Imports} (h : Ext i j) {pk : Package} (hp : QPkg i pk) : QPkg j pk :=
  hp.imp id h.named

/-! ### Packages and symbols -/

theorem prefixForPackage_named {p n a : GoString} {i j : Imports}
    (h : prefixForPackage p n true i = (.ok a, j)) :
    Ext i j ∧ NamedIn j ⟨p, trimDot a⟩ := by
  refine ⟨(runs_prefixForPackage p n true).ext h, ?_⟩
  by_cases ho : p = i.pkgPath
  · rw [prefixForPackage_own ho] at h
    simp only [Prod.mk.injEq, Outcome.ok.injEq] at h
    obtain ⟨rfl, rfl⟩ := h
    exact .inl ⟨ho, rfl⟩
  · cases hg : i.importsByPath.get p with
    | some d =>
      rw [prefixForPackage_known ho hg] at h
      simp only [Prod.mk.injEq, Outcome.ok.injEq] at h
      obtain ⟨rfl, rfl⟩ := h
      exact .inr ⟨ho, d, hg, by simp⟩
    | none =>
      obtain ⟨q, _, hq⟩ := prefixForPackage_new (n := n) ho hg
      rw [hq] at h
      simp only [Prod.mk.injEq, Outcome.ok.injEq] at h
      obtain ⟨rfl, rfl⟩ := h
      exact .inr ⟨ho, ⟨q, decide (q ≠ n)⟩, by simp [Imports.add], by simp⟩

/-- A package that was registered has its prefix, whatever name is given. -/
theorem prefixForPackage_of_named {p m n : GoString} {i : Imports} {r : Bool} (h : NamedIn i ⟨p, m⟩) :
    ∃ a, trimDot a = m ∧ prefixForPackage p n r i = (.ok a, i) := by
  rcases h with ⟨ho, hn⟩ | ⟨ho, d, hd, hn⟩
  · exact ⟨[], hn.symm, prefixForPackage_own ho⟩
  · exact ⟨_, by rw [trimDot_dot]; exact hn, prefixForPackage_known ho hd⟩

theorem registerPackage_named {pk : Package} {n : GoString} {i j : Imports}
    (h : registerPackage pk i = (.ok n, j)) : NamedIn j ⟨pk.importPath, n⟩ := by
  obtain ⟨a, j', h1, h2⟩ := IM.bind_eq_ok h
  simp only [IM.pure_apply, Prod.mk.injEq, Outcome.ok.injEq] at h2
  obtain ⟨rfl, rfl⟩ := h2
  exact (prefixForPackage_named h1).2

theorem registerPackage_of_named {pk : Package} {m : GoString} {i : Imports}
    (h : NamedIn i ⟨pk.importPath, m⟩) : registerPackage pk i = (.ok m, i) := by
  obtain ⟨a, h1, h2⟩ := prefixForPackage_of_named (n := pk.name) (r := true) h
  have h2' : registerImportForPackage pk i = (.ok a, i) := h2
  rw [registerPackage, IM.bind_ok h2']
  simp [h1]

theorem qualify_qpkg {s s' : Symbol} {i j : Imports} (h : qualify s true i = (.ok s', j)) :
    QPkg j s'.package := by
  by_cases hb : s.isBuiltin
  · rw [qualify_builtin hb] at h
    simp only [Prod.mk.injEq, Outcome.ok.injEq] at h
    obtain ⟨rfl, rfl⟩ := h
    obtain ⟨h1, h2⟩ := hb
    refine .inl ?_
    cases hs : s.package
    simp_all
  · have hb' : ¬ (s.package.name = [] ∧ s.package.importPath = []) := hb
    have h0 := h
    rw [qualify, if_neg hb'] at h
    obtain ⟨a, j', h1, _⟩ := IM.bind_eq_ok h
    rw [qualify_of_prefix hb h1] at h0
    simp only [Prod.mk.injEq, Outcome.ok.injEq] at h0
    obtain ⟨rfl, rfl⟩ := h0
    exact .inr (prefixForPackage_named h1).2

theorem qualify_of_qpkg {s : Symbol} {i : Imports} {r : Bool} (h : QPkg i s.package) :
    qualify s r i = (.ok s, i) := by
  by_cases hb : s.isBuiltin
  · exact qualify_builtin hb _ _
  · rcases h with h | h
    · exact absurd ⟨by rw [h], by rw [h]⟩ hb
    · obtain ⟨a, h1, h2⟩ := prefixForPackage_of_named (p := s.package.importPath) (m := s.package.name)
        (n := s.package.name) (r := r) h
      rw [qualify_of_prefix hb h2, h1]

/-! ### Replaying: what returned once returns the same later, and registers nothing -/

/-- If `x` returned, it returns the same in every later state, without registering anything. -/
def Replays {α} (x : IM α) : Prop :=
  ∀ i a j, x i = (.ok a, j) → Ext i j ∧ ∀ k, Ext j k → x k = (.ok a, k)

namespace Replays
variable {α β : Type}

theorem pure (a : α) : Replays (pure a : IM α) := by
  intro i b j h
  simp only [IM.pure_apply, Prod.mk.injEq, Outcome.ok.injEq] at h
  obtain ⟨rfl, rfl⟩ := h
  exact ⟨.refl _, fun k _ => rfl⟩

theorem panic : Replays (IM.panic : IM α) := by
  intro i b j h
  simp at h

theorem lift (x : Outcome α) : Replays (IM.lift x) := by
  intro i b j h
  simp only [IM.lift_apply, Prod.mk.injEq] at h
  obtain ⟨rfl, rfl⟩ := h
  exact ⟨.refl _, fun k _ => rfl⟩

theorem bind {x : IM α} {f : α → IM β} (hx : Replays x) (hf : ∀ a, Replays (f a)) :
    Replays (x >>= f) := by
  intro i b k h
  obtain ⟨a, j, h1, h2⟩ := IM.bind_eq_ok h
  obtain ⟨e1, r1⟩ := hx _ _ _ h1
  obtain ⟨e2, r2⟩ := hf _ _ _ _ h2
  exact ⟨e1.trans e2, fun l hl => by rw [IM.bind_ok (r1 l (e2.trans hl)), r2 l hl]⟩

theorem ite {c : Prop} [Decidable c] {x y : IM α} (hx : Replays x) (hy : Replays y) :
    Replays (if c then x else y) := by split <;> assumption

end Replays

theorem replays_prefix (p n : GoString) : Replays (prefixForPackage p n true) := by
  intro i a j h
  obtain ⟨h1, h2⟩ := prefixForPackage_named h
  refine ⟨h1, fun k hk => ?_⟩
  by_cases ho : p = i.pkgPath
  · rw [prefixForPackage_own ho] at h
    simp only [Prod.mk.injEq, Outcome.ok.injEq] at h
    obtain ⟨rfl, rfl⟩ := h
    exact prefixForPackage_own (ho.trans hk.own.symm)
  · have hk' : p ≠ k.pkgPath := by rw [hk.own, h1.own]; exact ho
    cases hg : i.importsByPath.get p with
    | some d =>
      rw [prefixForPackage_known ho hg] at h
      simp only [Prod.mk.injEq, Outcome.ok.injEq] at h
      obtain ⟨rfl, rfl⟩ := h
      exact prefixForPackage_known hk' (hk.keeps _ _ hg)
    | none =>
      obtain ⟨q, _, hq⟩ := prefixForPackage_new (n := n) ho hg
      rw [hq] at h
      simp only [Prod.mk.injEq, Outcome.ok.injEq] at h
      obtain ⟨rfl, rfl⟩ := h
      exact prefixForPackage_known (d := ⟨q, decide (q ≠ n)⟩) hk'
        (hk.keeps _ _ (by simp [Imports.add]))

theorem replays_registerPackage (pk : Package) : Replays (registerPackage pk) :=
  .bind (replays_prefix _ _) fun _ => .pure _

theorem replays_qualify (s : Symbol) : Replays (qualify s true) := by
  unfold qualify
  exact .ite (.pure _) (.bind (replays_prefix _ _) fun _ => .ite (.pure _) (.pure _))

theorem replays_qualifySymbols : ∀ l, Replays (qualifySymbols true l)
  | [] => .pure _
  | s :: l => by
    rw [qualifySymbols]
    exact .bind (replays_qualify s) fun _ => .bind (replays_qualifySymbols l) fun _ => .pure _

mutual
theorem replays_qualifyType : ∀ t, Replays (qualifyType true t)
  | .nil => by rw [qualifyType]; exact .panic
  | .basic k => by rw [qualifyType]; exact .pure _
  | .named s => by
    rw [qualifyType]; exact .bind (replays_qualify s) fun _ => .ite (.pure _) (.pure _)
  | .ptr e => by
    rw [qualifyType]
    exact .bind (replays_qualifyType e) fun _ => .ite (.bind (.lift _) fun _ => .pure _) (.pure _)
  | .slice e => by
    rw [qualifyType]
    exact .bind (replays_qualifyType e) fun _ => .ite (.bind (.lift _) fun _ => .pure _) (.pure _)
  | .array e n => by
    rw [qualifyType]
    exact .bind (replays_qualifyType e) fun _ => .ite (.bind (.lift _) fun _ => .pure _) (.pure _)
  | .map e k => by
    rw [qualifyType]
    exact .bind (replays_qualifyType k) fun _ => .bind (replays_qualifyType e) fun _ =>
      .ite (.bind (.lift _) fun _ => .pure _) (.pure _)
  | .chan e d => by
    rw [qualifyType]
    exact .bind (replays_qualifyType e) fun _ => .ite (.bind (.lift _) fun _ => .pure _) (.pure _)
  | .func s => by
    rw [qualifyType]
    exact .bind (replays_qualifySignature s) fun _ => .ite (.bind (.lift _) fun _ => .pure _) (.pure _)
  | .struct fs => by
    rw [qualifyType]
    exact .bind (replays_qualifyFields fs) fun _ => .ite (.pure _) (.pure _)
  | .interface ms es => by
    rw [qualifyType]
    exact .bind (replays_qualifySymbols es) fun _ => .bind (replays_qualifyMethods ms) fun _ =>
      .ite (.pure _) (.pure _)
theorem replays_qualifySignature : ∀ s, Replays (qualifySignature true s)
  | ⟨args, results, v⟩ => by
    rw [qualifySignature]
    exact .bind (replays_qualifyArgs args) fun _ => .bind (replays_qualifyArgs results) fun _ =>
      .ite (.pure _) (.pure _)
theorem replays_qualifyArgs : ∀ l, Replays (qualifyArgs true l)
  | [] => by rw [qualifyArgs]; exact .pure _
  | ⟨n, t⟩ :: l => by
    rw [qualifyArgs]
    exact .bind (replays_qualifyType t) fun _ => .bind (replays_qualifyArgs l) fun _ => .pure _
theorem replays_qualifyFields : ∀ l, Replays (qualifyFields true l)
  | [] => by rw [qualifyFields]; exact .pure _
  | ⟨n, t, tag⟩ :: l => by
    rw [qualifyFields]
    exact .bind (replays_qualifyType t) fun _ => .bind (replays_qualifyFields l) fun _ => .pure _
theorem replays_qualifyMethods : ∀ l, Replays (qualifyMethods true l)
  | [] => by rw [qualifyMethods]; exact .pure _
  | ⟨n, t⟩ :: l => by
    rw [qualifyMethods]
    exact .bind (replays_qualifySignature t) fun _ => .bind (replays_qualifyMethods l) fun _ => .pure _
end

/-! ### Types whose symbols satisfy a predicate -/

mutual
/-- All symbols satisfy `P` and there is no nil inside. -/
def TypeName.All (P : Symbol → Prop) : TypeName → Prop
  | .nil => False
  | .basic _ => True
  | .named s => P s
  | .ptr e => e.All P
  | .slice e => e.All P
  | .array e _ => e.All P
  | .map e k => k.All P ∧ e.All P
  | .chan e _ => e.All P
  | .func s => s.All P
  | .struct fs => allFields P fs
  | .interface ms es => (∀ s ∈ es, P s) ∧ allMethods P ms
/-- see `TypeName.All` -/
def Signature.All (P : Symbol → Prop) : Signature → Prop
  | ⟨args, results, _⟩ => allArgs P args ∧ allArgs P results
/-- see `TypeName.All` -/
def allArgs (P : Symbol → Prop) : List ArgType → Prop
  | [] => True
  | ⟨_, t⟩ :: l => t.All P ∧ allArgs P l
/-- see `TypeName.All` -/
def allFields (P : Symbol → Prop) : List FieldType → Prop
  | [] => True
  | ⟨_, t, _⟩ :: l => t.All P ∧ allFields P l
/-- see `TypeName.All` -/
def allMethods (P : Symbol → Prop) : List MethodType → Prop
  | [] => True
  | ⟨_, s⟩ :: l => s.All P ∧ allMethods P l
end

mutual
theorem TypeName.All.mono {P Q : Symbol → Prop} (h : ∀ s, P s → Q s) : ∀ t : TypeName, t.All P → t.All Q
  | .nil, a => by simp [TypeName.All] at a
  | .basic _, _ => by simp [TypeName.All]
  | .named s, a => by simp only [TypeName.All] at *; exact h _ a
  | .ptr e, a => by simp only [TypeName.All] at *; exact TypeName.All.mono h e a
  | .slice e, a => by simp only [TypeName.All] at *; exact TypeName.All.mono h e a
  | .array e _, a => by simp only [TypeName.All] at *; exact TypeName.All.mono h e a
  | .map e k, a => by
    simp only [TypeName.All] at *; exact ⟨TypeName.All.mono h k a.1, TypeName.All.mono h e a.2⟩
  | .chan e _, a => by simp only [TypeName.All] at *; exact TypeName.All.mono h e a
  | .func s, a => by simp only [TypeName.All] at *; exact Signature.All.mono h s a
  | .struct fs, a => by simp only [TypeName.All] at *; exact allFields_mono h fs a
  | .interface ms es, a => by
    simp only [TypeName.All] at *; exact ⟨fun s hs => h _ (a.1 s hs), allMethods_mono h ms a.2⟩
theorem Signature.All.mono {P Q : Symbol → Prop} (h : ∀ s, P s → Q s) :
    ∀ t : Signature, t.All P → t.All Q
  | ⟨args, results, v⟩, a => by
    simp only [Signature.All] at *; exact ⟨allArgs_mono h args a.1, allArgs_mono h results a.2⟩
theorem allArgs_mono {P Q : Symbol → Prop} (h : ∀ s, P s → Q s) : ∀ t, allArgs P t → allArgs Q t
  | [], _ => by simp [allArgs]
  | ⟨_, t⟩ :: l, a => by
    simp only [allArgs] at *; exact ⟨TypeName.All.mono h t a.1, allArgs_mono h l a.2⟩
theorem allFields_mono {P Q : Symbol → Prop} (h : ∀ s, P s → Q s) : ∀ t, allFields P t → allFields Q t
  | [], _ => by simp [allFields]
  | ⟨_, t, _⟩ :: l, a => by
    simp only [allFields] at *; exact ⟨TypeName.All.mono h t a.1, allFields_mono h l a.2⟩
theorem allMethods_mono {P Q : Symbol → Prop} (h : ∀ s, P s → Q s) :
    ∀ t, allMethods P t → allMethods Q t
  | [], _ => by simp [allMethods]
  | ⟨_, t⟩ :: l, a => by
    simp only [allMethods] at *; exact ⟨Signature.All.mono h t a.1, allMethods_mono h l a.2⟩
end

mutual
theorem TypeName.All.symbols {P : Symbol → Prop} : ∀ t : TypeName, t.All P → ∀ s ∈ t.symbols, P s
  | .nil, a, s, _ => by simp [TypeName.All] at a
  | .basic _, _, s, hs => by simp [TypeName.symbols] at hs
  | .named s, a, x, hs => by
    simp only [TypeName.All, TypeName.symbols, List.mem_singleton] at *; exact hs ▸ a
  | .ptr e, a, s, hs => by
    simp only [TypeName.All, TypeName.symbols] at *; exact TypeName.All.symbols e a s hs
  | .slice e, a, s, hs => by
    simp only [TypeName.All, TypeName.symbols] at *; exact TypeName.All.symbols e a s hs
  | .array e _, a, s, hs => by
    simp only [TypeName.All, TypeName.symbols] at *; exact TypeName.All.symbols e a s hs
  | .map e k, a, s, hs => by
    simp only [TypeName.All, TypeName.symbols, List.mem_append] at *
    exact hs.elim (TypeName.All.symbols k a.1 s) (TypeName.All.symbols e a.2 s)
  | .chan e _, a, s, hs => by
    simp only [TypeName.All, TypeName.symbols] at *; exact TypeName.All.symbols e a s hs
  | .func t, a, s, hs => by
    simp only [TypeName.All, TypeName.symbols] at *; exact Signature.All.symbols t a s hs
  | .struct fs, a, s, hs => by
    simp only [TypeName.All, TypeName.symbols] at *; exact allFields_symbols fs a s hs
  | .interface ms es, a, s, hs => by
    simp only [TypeName.All, TypeName.symbols, List.mem_append] at *
    exact hs.elim (a.1 s) (allMethods_symbols ms a.2 s)
theorem Signature.All.symbols {P : Symbol → Prop} : ∀ t : Signature, t.All P → ∀ s ∈ t.symbols, P s
  | ⟨args, results, v⟩, a, s, hs => by
    simp only [Signature.All, Signature.symbols, List.mem_append] at *
    exact hs.elim (allArgs_symbols args a.1 s) (allArgs_symbols results a.2 s)
theorem allArgs_symbols {P : Symbol → Prop} : ∀ t, allArgs P t → ∀ s ∈ symbolsArgs t, P s
  | [], _, s, hs => by simp [symbolsArgs] at hs
  | ⟨_, t⟩ :: l, a, s, hs => by
    simp only [allArgs, symbolsArgs, List.mem_append] at *
    exact hs.elim (TypeName.All.symbols t a.1 s) (allArgs_symbols l a.2 s)
theorem allFields_symbols {P : Symbol → Prop} : ∀ t, allFields P t → ∀ s ∈ symbolsFields t, P s
  | [], _, s, hs => by simp [symbolsFields] at hs
  | ⟨_, t, _⟩ :: l, a, s, hs => by
    simp only [allFields, symbolsFields, List.mem_append] at *
    exact hs.elim (TypeName.All.symbols t a.1 s) (allFields_symbols l a.2 s)
theorem allMethods_symbols {P : Symbol → Prop} : ∀ t, allMethods P t → ∀ s ∈ symbolsMethods t, P s
  | [], _, s, hs => by simp [symbolsMethods] at hs
  | ⟨_, t⟩ :: l, a, s, hs => by
    simp only [allMethods, symbolsMethods, List.mem_append] at *
    exact hs.elim (Signature.All.symbols t a.1 s) (allMethods_symbols l a.2 s)
end

/-! ### Settled types -/

/-- The symbol is qualified. -/
def SymSettled (i : Imports) (s : Symbol) : Prop := QPkg i s.package

/-- All symbols of the type are qualified. -/
def TypeSettled (i : Imports) (t : TypeName) : Prop := t.All (SymSettled i)
/-- All symbols of the signature are qualified. -/
def SigSettled (i : Imports) (t : Signature) : Prop := t.All (SymSettled i)

theorem Ext.typeSettled {i j : Imports} (h : Ext i j) {t : TypeName} (ht : TypeSettled i t) :
    TypeSettled j t := TypeName.All.mono (fun _ hs => h.qpkg hs) t ht
theorem Ext.sigSettled {i j : Imports} (h : Ext i j) {t : Signature} (ht : SigSettled i t) :
    SigSettled j t := Signature.All.mono (fun _ hs => h.qpkg hs) t ht

theorem qualifySymbols_of_settled {i : Imports} : ∀ l : List Symbol, (∀ s ∈ l, SymSettled i s) →
    qualifySymbols true l i = (.ok (l, false), i)
  | [], _ => rfl
  | s :: l, h => by
    rw [qualifySymbols, IM.bind_ok (qualify_of_qpkg (h s (by simp))),
      IM.bind_ok (qualifySymbols_of_settled l fun s hs => h s (by simp [hs]))]
    simp

mutual
theorem qualifyType_of_settled {i : Imports} : ∀ t : TypeName, t.All (SymSettled i) →
    qualifyType true t i = (.ok (t, false), i)
  | .nil, h => by simp [TypeName.All] at h
  | .basic k, _ => by rw [qualifyType]; rfl
  | .named s, h => by
    simp only [TypeName.All] at h
    rw [qualifyType, IM.bind_ok (qualify_of_qpkg h)]; simp
  | .ptr e, h => by
    simp only [TypeName.All] at h
    rw [qualifyType, IM.bind_ok (qualifyType_of_settled e h)]; simp
  | .slice e, h => by
    simp only [TypeName.All] at h
    rw [qualifyType, IM.bind_ok (qualifyType_of_settled e h)]; simp
  | .array e n, h => by
    simp only [TypeName.All] at h
    rw [qualifyType, IM.bind_ok (qualifyType_of_settled e h)]; simp
  | .map e k, h => by
    simp only [TypeName.All] at h
    rw [qualifyType, IM.bind_ok (qualifyType_of_settled k h.1)]
    show (qualifyType true e >>= _) i = _
    rw [IM.bind_ok (qualifyType_of_settled e h.2)]; simp
  | .chan e d, h => by
    simp only [TypeName.All] at h
    rw [qualifyType, IM.bind_ok (qualifyType_of_settled e h)]; simp
  | .func s, h => by
    simp only [TypeName.All] at h
    rw [qualifyType, IM.bind_ok (qualifySignature_of_settled s h)]; simp
  | .struct fs, h => by
    simp only [TypeName.All] at h
    rw [qualifyType, IM.bind_ok (qualifyFields_of_settled fs h)]; simp
  | .interface ms es, h => by
    simp only [TypeName.All] at h
    rw [qualifyType, IM.bind_ok (qualifySymbols_of_settled es h.1)]
    show (qualifyMethods true ms >>= _) i = _
    rw [IM.bind_ok (qualifyMethods_of_settled ms h.2)]; simp
theorem qualifySignature_of_settled {i : Imports} : ∀ t : Signature, t.All (SymSettled i) →
    qualifySignature true t i = (.ok (t, false), i)
  | ⟨args, results, v⟩, h => by
    simp only [Signature.All] at h
    rw [qualifySignature, IM.bind_ok (qualifyArgs_of_settled args h.1)]
    show (qualifyArgs true results >>= _) i = _
    rw [IM.bind_ok (qualifyArgs_of_settled results h.2)]; simp
theorem qualifyArgs_of_settled {i : Imports} : ∀ t, allArgs (SymSettled i) t →
    qualifyArgs true t i = (.ok (t, false), i)
  | [], _ => by rw [qualifyArgs]; rfl
  | ⟨n, t⟩ :: l, h => by
    simp only [allArgs] at h
    rw [qualifyArgs, IM.bind_ok (qualifyType_of_settled t h.1)]
    show (qualifyArgs true l >>= _) i = _
    rw [IM.bind_ok (qualifyArgs_of_settled l h.2)]; simp
theorem qualifyFields_of_settled {i : Imports} : ∀ t, allFields (SymSettled i) t →
    qualifyFields true t i = (.ok (t, false), i)
  | [], _ => by rw [qualifyFields]; rfl
  | ⟨n, t, tag⟩ :: l, h => by
    simp only [allFields] at h
    rw [qualifyFields, IM.bind_ok (qualifyType_of_settled t h.1)]
    show (qualifyFields true l >>= _) i = _
    rw [IM.bind_ok (qualifyFields_of_settled l h.2)]; simp
theorem qualifyMethods_of_settled {i : Imports} : ∀ t, allMethods (SymSettled i) t →
    qualifyMethods true t i = (.ok (t, false), i)
  | [], _ => by rw [qualifyMethods]; rfl
  | ⟨n, t⟩ :: l, h => by
    simp only [allMethods] at h
    rw [qualifyMethods, IM.bind_ok (qualifySignature_of_settled t h.1)]
    show (qualifyMethods true l >>= _) i = _
    rw [IM.bind_ok (qualifyMethods_of_settled l h.2)]; simp
end

theorem pure_eq_ok {α} {a b : α} {i j : Imports} (h : (pure a : IM α) i = (.ok b, j)) :
    a = b ∧ i = j := by
  simpa using h

theorem lift_eq_ok {α} {x : Outcome α} {b : α} {i j : Imports} (h : IM.lift x i = (.ok b, j)) :
    x = .ok b ∧ i = j := by
  simpa using h

theorem qualifySymbols_settled : ∀ {l : List Symbol} {r : List Symbol × Bool} {i j : Imports},
    qualifySymbols true l i = (.ok r, j) → (r.2 = false → r.1 = l) ∧ ∀ s ∈ r.1, SymSettled j s
  | [], r, i, j, h => by
    obtain ⟨rfl, rfl⟩ := pure_eq_ok h
    simp
  | s :: l, r, i, k, h => by
    rw [qualifySymbols] at h
    obtain ⟨nt, j, h1, h⟩ := IM.bind_eq_ok h
    obtain ⟨⟨rest, c⟩, k', h2, h⟩ := IM.bind_eq_ok h
    obtain ⟨rfl, rfl⟩ := pure_eq_ok h
    obtain ⟨h3, h4⟩ := qualifySymbols_settled h2
    have hjk := (replays_qualifySymbols l _ _ _ h2).1
    refine ⟨?_, ?_⟩
    · intro hc
      simp only [Bool.or_eq_false_iff, decide_eq_false_iff_not, ne_eq, not_not] at hc
      exact congrArg₂ _ hc.1 (h3 hc.2)
    · intro x hx
      rcases List.mem_cons.1 hx with rfl | hx
      · exact hjk.qpkg (qualify_qpkg h1)
      · exact h4 x hx

theorem pointerType_eq_ok {t u : TypeName} (h : pointerType t = .ok u) : u = .ptr t := by
  unfold pointerType at h; split at h <;> simp_all
theorem sliceType_eq_ok {t u : TypeName} (h : sliceType t = .ok u) : u = .slice t := by
  unfold sliceType at h; split at h <;> simp_all
theorem arrayType_eq_ok {t u : TypeName} {n} (h : arrayType t n = .ok u) : u = .array t n := by
  unfold arrayType at h; split at h <;> simp_all
theorem mapType_eq_ok {k t u : TypeName} (h : mapType k t = .ok u) : u = .map t k := by
  unfold mapType at h; split at h <;> simp_all
theorem channelType_eq_ok {t u : TypeName} {d} (h : channelType t d = .ok u) :
    ∃ d', u = .chan t d' := by
  unfold channelType at h; dsimp only at h
  split at h <;> split at h <;> first | (simp at h; done) | exact ⟨_, (Outcome.ok.inj h).symm⟩
theorem funcTypeFromSig_eq_ok {s : Signature} {u : TypeName} (h : funcTypeFromSig s = .ok u) :
    u = .func s := by
  unfold funcTypeFromSig at h
  split at h
  · simp at h
  · split at h
    · simp at h
    · split at h
      · split at h
        · simp at h
        · split at h <;> simp_all
      · exact (Outcome.ok.inj h).symm

mutual
/-- The result of qualification is settled; if it is the given type, as the Boolean says, then
really so. -/
theorem qualifyType_settled : ∀ (t : TypeName) {r : TypeName × Bool} {i j : Imports},
    qualifyType true t i = (.ok r, j) → (r.2 = false → r.1 = t) ∧ r.1.All (SymSettled j)
  | .nil, r, i, j, h => by rw [qualifyType] at h; simp at h
  | .basic k, r, i, j, h => by
    rw [qualifyType] at h
    obtain ⟨rfl, rfl⟩ := pure_eq_ok h
    simp [TypeName.All]
  | .named s, r, i, j, h => by
    rw [qualifyType] at h
    obtain ⟨nt, j, h1, h⟩ := IM.bind_eq_ok h
    try dsimp only at h
    rw [IM.ite_apply] at h
    have hq : SymSettled _ _ := qualify_qpkg h1
    by_cases hn : nt = s
    · rw [if_neg (by simpa using hn)] at h
      obtain ⟨hr, hj⟩ := pure_eq_ok h
      subst hr hj hn
      simpa [TypeName.All] using hq
    · rw [if_pos (by simpa using hn)] at h
      obtain ⟨hr, hj⟩ := pure_eq_ok h
      subst hr hj
      simpa [TypeName.All, namedType] using hq
  | .ptr e, r, i, j, h => by
    rw [qualifyType] at h
    obtain ⟨⟨ne, c⟩, j, h1, h⟩ := IM.bind_eq_ok h
    obtain ⟨g1, g2⟩ := qualifyType_settled e h1
    try dsimp only at h
    rw [IM.ite_apply] at h
    split at h
    · obtain ⟨n, j', h2, h⟩ := IM.bind_eq_ok h
      obtain ⟨hl, hj⟩ := lift_eq_ok h2
      obtain ⟨hr, hj'⟩ := pure_eq_ok h
      subst hj hr hj'
      rw [pointerType_eq_ok hl]
      simpa [TypeName.All] using g2
    · rename_i hc
      obtain ⟨hr, hj⟩ := pure_eq_ok h
      subst hr hj
      rw [← g1 (by simpa using hc)]
      simpa [TypeName.All] using g2
  | .slice e, r, i, j, h => by
    rw [qualifyType] at h
    obtain ⟨⟨ne, c⟩, j, h1, h⟩ := IM.bind_eq_ok h
    obtain ⟨g1, g2⟩ := qualifyType_settled e h1
    try dsimp only at h
    rw [IM.ite_apply] at h
    split at h
    · obtain ⟨n, j', h2, h⟩ := IM.bind_eq_ok h
      obtain ⟨hl, hj⟩ := lift_eq_ok h2
      obtain ⟨hr, hj'⟩ := pure_eq_ok h
      subst hj hr hj'
      rw [sliceType_eq_ok hl]
      simpa [TypeName.All] using g2
    · rename_i hc
      obtain ⟨hr, hj⟩ := pure_eq_ok h
      subst hr hj
      rw [← g1 (by simpa using hc)]
      simpa [TypeName.All] using g2
  | .array e n, r, i, j, h => by
    rw [qualifyType] at h
    obtain ⟨⟨ne, c⟩, j, h1, h⟩ := IM.bind_eq_ok h
    obtain ⟨g1, g2⟩ := qualifyType_settled e h1
    try dsimp only at h
    rw [IM.ite_apply] at h
    split at h
    · obtain ⟨n, j', h2, h⟩ := IM.bind_eq_ok h
      obtain ⟨hl, hj⟩ := lift_eq_ok h2
      obtain ⟨hr, hj'⟩ := pure_eq_ok h
      subst hj hr hj'
      rw [arrayType_eq_ok hl]
      simpa [TypeName.All] using g2
    · rename_i hc
      obtain ⟨hr, hj⟩ := pure_eq_ok h
      subst hr hj
      rw [← g1 (by simpa using hc)]
      simpa [TypeName.All] using g2
  | .map e k, r, i, j, h => by
    rw [qualifyType] at h
    obtain ⟨⟨nk, ck⟩, j, h1, h⟩ := IM.bind_eq_ok h
    obtain ⟨⟨ne, ce⟩, l, h2, h⟩ := IM.bind_eq_ok h
    obtain ⟨g1, g2⟩ := qualifyType_settled k h1
    obtain ⟨g3, g4⟩ := qualifyType_settled e h2
    have hjl := (replays_qualifyType e _ _ _ h2).1
    have g2 := hjl.typeSettled g2
    try dsimp only at h
    rw [IM.ite_apply] at h
    split at h
    · obtain ⟨n, j', h2, h⟩ := IM.bind_eq_ok h
      obtain ⟨hl, hj⟩ := lift_eq_ok h2
      obtain ⟨hr, hj'⟩ := pure_eq_ok h
      subst hj hr hj'
      rw [mapType_eq_ok hl]
      exact ⟨by simp, by rw [TypeName.All]; exact ⟨g2, g4⟩⟩
    · rename_i hc
      obtain ⟨hr, hj⟩ := pure_eq_ok h
      subst hr hj
      simp only [Bool.or_eq_true, not_or, Bool.not_eq_true] at hc
      rw [← g1 hc.2, ← g3 hc.1]
      exact ⟨by simp, by rw [TypeName.All]; exact ⟨g2, g4⟩⟩
  | .chan e d, r, i, j, h => by
    rw [qualifyType] at h
    obtain ⟨⟨ne, c⟩, j, h1, h⟩ := IM.bind_eq_ok h
    obtain ⟨g1, g2⟩ := qualifyType_settled e h1
    try dsimp only at h
    rw [IM.ite_apply] at h
    split at h
    · obtain ⟨n, j', h2, h⟩ := IM.bind_eq_ok h
      obtain ⟨hl, hj⟩ := lift_eq_ok h2
      obtain ⟨hr, hj'⟩ := pure_eq_ok h
      subst hj hr hj'
      obtain ⟨d', rfl⟩ := channelType_eq_ok hl
      simpa [TypeName.All] using g2
    · rename_i hc
      obtain ⟨hr, hj⟩ := pure_eq_ok h
      subst hr hj
      rw [← g1 (by simpa using hc)]
      simpa [TypeName.All] using g2
  | .func s, r, i, j, h => by
    rw [qualifyType] at h
    obtain ⟨⟨ne, c⟩, j, h1, h⟩ := IM.bind_eq_ok h
    obtain ⟨g1, g2⟩ := qualifySignature_settled s h1
    try dsimp only at h
    rw [IM.ite_apply] at h
    split at h
    · obtain ⟨n, j', h2, h⟩ := IM.bind_eq_ok h
      obtain ⟨hl, hj⟩ := lift_eq_ok h2
      obtain ⟨hr, hj'⟩ := pure_eq_ok h
      subst hj hr hj'
      rw [funcTypeFromSig_eq_ok hl]
      simpa [TypeName.All] using g2
    · rename_i hc
      obtain ⟨hr, hj⟩ := pure_eq_ok h
      subst hr hj
      rw [← g1 (by simpa using hc)]
      simpa [TypeName.All] using g2
  | .struct fs, r, i, j, h => by
    rw [qualifyType] at h
    obtain ⟨⟨ne, c⟩, j, h1, h⟩ := IM.bind_eq_ok h
    obtain ⟨g1, g2⟩ := qualifyFields_settled fs h1
    try dsimp only at h
    rw [IM.ite_apply] at h
    split at h
    · obtain ⟨rfl, rfl⟩ := pure_eq_ok h
      simpa [TypeName.All, structType] using g2
    · rename_i hc
      obtain ⟨hr, hj⟩ := pure_eq_ok h
      subst hr hj
      rw [← g1 (by simpa using hc)]
      simpa [TypeName.All] using g2
  | .interface ms es, r, i, j, h => by
    rw [qualifyType] at h
    obtain ⟨⟨nk, ck⟩, j, h1, h⟩ := IM.bind_eq_ok h
    obtain ⟨⟨ne, ce⟩, l, h2, h⟩ := IM.bind_eq_ok h
    obtain ⟨g1, g2⟩ := qualifySymbols_settled h1
    obtain ⟨g3, g4⟩ := qualifyMethods_settled ms h2
    have hjl := (replays_qualifyMethods ms _ _ _ h2).1
    have g2 : ∀ s ∈ nk, SymSettled l s := fun s hs => hjl.qpkg (g2 s hs)
    try dsimp only at h
    rw [IM.ite_apply] at h
    split at h
    · obtain ⟨rfl, rfl⟩ := pure_eq_ok h
      exact ⟨by simp, by rw [interfaceType, TypeName.All]; exact ⟨g2, g4⟩⟩
    · rename_i hc
      obtain ⟨hr, hj⟩ := pure_eq_ok h
      subst hr hj
      simp only [Bool.or_eq_true, not_or, Bool.not_eq_true] at hc
      rw [← g1 hc.1, ← g3 hc.2]
      exact ⟨by simp, by rw [TypeName.All]; exact ⟨g2, g4⟩⟩
theorem qualifySignature_settled : ∀ (t : Signature) {r : Signature × Bool} {i j : Imports},
    qualifySignature true t i = (.ok r, j) → (r.2 = false → r.1 = t) ∧ r.1.All (SymSettled j)
  | ⟨args, results, v⟩, r, i, j, h => by
    rw [qualifySignature] at h
    obtain ⟨⟨nk, ck⟩, j, h1, h⟩ := IM.bind_eq_ok h
    obtain ⟨⟨ne, ce⟩, l, h2, h⟩ := IM.bind_eq_ok h
    obtain ⟨g1, g2⟩ := qualifyArgs_settled args h1
    obtain ⟨g3, g4⟩ := qualifyArgs_settled results h2
    have hjl := (replays_qualifyArgs results _ _ _ h2).1
    have g2 := allArgs_mono (fun _ hs => hjl.qpkg hs) _ g2
    try dsimp only at h
    rw [IM.ite_apply] at h
    split at h
    · obtain ⟨rfl, rfl⟩ := pure_eq_ok h
      exact ⟨by simp, by rw [Signature.All]; exact ⟨g2, g4⟩⟩
    · rename_i hc
      obtain ⟨hr, hj⟩ := pure_eq_ok h
      subst hr hj
      simp only [Bool.or_eq_true, not_or, Bool.not_eq_true] at hc
      rw [← g1 hc.1, ← g3 hc.2]
      exact ⟨by simp, by rw [Signature.All]; exact ⟨g2, g4⟩⟩
theorem qualifyArgs_settled : ∀ (t : List ArgType) {r : List ArgType × Bool} {i j : Imports},
    qualifyArgs true t i = (.ok r, j) → (r.2 = false → r.1 = t) ∧ allArgs (SymSettled j) r.1
  | [], r, i, j, h => by
    rw [qualifyArgs] at h
    obtain ⟨rfl, rfl⟩ := pure_eq_ok h
    simp [allArgs]
  | ⟨n, t⟩ :: l, r, i, j, h => by
    rw [qualifyArgs] at h
    obtain ⟨⟨nk, ck⟩, j, h1, h⟩ := IM.bind_eq_ok h
    obtain ⟨⟨ne, ce⟩, k, h2, h⟩ := IM.bind_eq_ok h
    obtain ⟨g1, g2⟩ := qualifyType_settled t h1
    obtain ⟨g3, g4⟩ := qualifyArgs_settled l h2
    have g2 := (replays_qualifyArgs l _ _ _ h2).1.typeSettled g2
    obtain ⟨rfl, rfl⟩ := pure_eq_ok h
    refine ⟨?_, by rw [allArgs]; exact ⟨g2, g4⟩⟩
    simp only [Bool.or_eq_false_iff]
    rintro ⟨a, b⟩
    have e1 := g1 a
    have e2 := g3 b
    dsimp only at e1 e2
    rw [e1, e2]
theorem qualifyFields_settled : ∀ (t : List FieldType) {r : List FieldType × Bool} {i j : Imports},
    qualifyFields true t i = (.ok r, j) → (r.2 = false → r.1 = t) ∧ allFields (SymSettled j) r.1
  | [], r, i, j, h => by
    rw [qualifyFields] at h
    obtain ⟨rfl, rfl⟩ := pure_eq_ok h
    simp [allFields]
  | ⟨n, t, tag⟩ :: l, r, i, j, h => by
    rw [qualifyFields] at h
    obtain ⟨⟨nk, ck⟩, j, h1, h⟩ := IM.bind_eq_ok h
    obtain ⟨⟨ne, ce⟩, k, h2, h⟩ := IM.bind_eq_ok h
    obtain ⟨g1, g2⟩ := qualifyType_settled t h1
    obtain ⟨g3, g4⟩ := qualifyFields_settled l h2
    have g2 := (replays_qualifyFields l _ _ _ h2).1.typeSettled g2
    obtain ⟨rfl, rfl⟩ := pure_eq_ok h
    refine ⟨?_, by rw [allFields]; exact ⟨g2, g4⟩⟩
    simp only [Bool.or_eq_false_iff]
    rintro ⟨a, b⟩
    have e1 := g1 a
    have e2 := g3 b
    dsimp only at e1 e2
    rw [e1, e2]
theorem qualifyMethods_settled : ∀ (t : List MethodType) {r : List MethodType × Bool} {i j : Imports},
    qualifyMethods true t i = (.ok r, j) → (r.2 = false → r.1 = t) ∧ allMethods (SymSettled j) r.1
  | [], r, i, j, h => by
    rw [qualifyMethods] at h
    obtain ⟨rfl, rfl⟩ := pure_eq_ok h
    simp [allMethods]
  | ⟨n, t⟩ :: l, r, i, j, h => by
    rw [qualifyMethods] at h
    obtain ⟨⟨nk, ck⟩, j, h1, h⟩ := IM.bind_eq_ok h
    obtain ⟨⟨ne, ce⟩, k, h2, h⟩ := IM.bind_eq_ok h
    obtain ⟨g1, g2⟩ := qualifySignature_settled t h1
    obtain ⟨g3, g4⟩ := qualifyMethods_settled l h2
    have g2 := (replays_qualifyMethods l _ _ _ h2).1.sigSettled g2
    obtain ⟨rfl, rfl⟩ := pure_eq_ok h
    refine ⟨?_, by rw [allMethods]; exact ⟨g2, g4⟩⟩
    simp only [Bool.or_eq_false_iff]
    rintro ⟨a, b⟩
    have e1 := g1 a
    have e2 := g3 b
    dsimp only at e1 e2
    rw [e1, e2]
end

/-! ### The exported operations -/

theorem ensureTypeImported_settled {t t' : TypeName} {i j : Imports}
    (h : ensureTypeImported t i = (.ok t', j)) : TypeSettled j t' := by
  obtain ⟨r, k, h1, h⟩ := IM.bind_eq_ok h
  obtain ⟨rfl, rfl⟩ := pure_eq_ok h
  exact (qualifyType_settled t h1).2

theorem ensureTypeImported_of_settled {t : TypeName} {i : Imports} (h : TypeSettled i t) :
    ensureTypeImported t i = (.ok t, i) := by
  rw [ensureTypeImported, IM.bind_ok (qualifyType_of_settled t h)]; rfl

theorem ensureAllTypesImported_settled {t t' : Signature} {i j : Imports}
    (h : ensureAllTypesImported t i = (.ok t', j)) : SigSettled j t' := by
  obtain ⟨r, k, h1, h⟩ := IM.bind_eq_ok h
  obtain ⟨rfl, rfl⟩ := pure_eq_ok h
  exact (qualifySignature_settled t h1).2

theorem ensureAllTypesImported_of_settled {t : Signature} {i : Imports} (h : SigSettled i t) :
    ensureAllTypesImported t i = (.ok t, i) := by
  rw [ensureAllTypesImported, IM.bind_ok (qualifySignature_of_settled t h)]; rfl

theorem ensureImported_settled {s s' : Symbol} {i j : Imports}
    (h : ensureImported s i = (.ok s', j)) : SymSettled j s' := qualify_qpkg h

theorem ensureImported_of_settled {s : Symbol} {i : Imports} (h : SymSettled i s) :
    ensureImported s i = (.ok s, i) := qualify_of_qpkg h

end Gopoet
