import Verif.Proof.HeapLemmas
import Verif.Spec.Builders
/-! Lemmas about the effect of single calls on the heap. -/

namespace Gopoet

theorem lastOr_cons {α β : Type} (g : α → Option β) (b : β) (a : α) (l : List α) :
    lastOr b ((a :: l).filterMap g) = lastOr ((g a).getD b) (l.filterMap g) := by
  cases h : g a <;> simp [h, lastOr]

theorem modAt_ok {α : Type} {m m' : Ptr → Option α} {p : Ptr} {f : α → α} (h : modAt m p f = .ok m') :
    ∃ a, m p = some a ∧ m' = upd m p (f a) := by
  unfold modAt at h
  split at h
  · rename_i a ha
    cases h; exact ⟨a, ha, rfl⟩
  · cases h

/-- `m'` has what `m` has, up to a change that `keep` allows. -/
def Extends {α : Type} (keep : α → α → Prop) (m m' : Ptr → Option α) : Prop :=
  ∀ p a, m p = some a → ∃ a', m' p = some a' ∧ keep a a'

theorem Extends.refl {α : Type} {keep : α → α → Prop} (hk : ∀ a, keep a a) (m : Ptr → Option α) :
    Extends keep m m := fun _ a h => ⟨a, h, hk a⟩

theorem Extends.trans {α : Type} {keep : α → α → Prop} (hk : ∀ a b c, keep a b → keep b c → keep a c)
    {m m' m'' : Ptr → Option α} (h1 : Extends keep m m') (h2 : Extends keep m' m'') :
    Extends keep m m'' := by
  intro p a h
  obtain ⟨b, hb, hab⟩ := h1 p a h
  obtain ⟨c, hc, hbc⟩ := h2 p b hb
  exact ⟨c, hc, hk _ _ _ hab hbc⟩

theorem Extends.upd {α : Type} {keep : α → α → Prop} (hk : ∀ a, keep a a) {m : Ptr → Option α} {p : Ptr}
    (hp : m p = none) (a : α) : Extends keep m (upd m p a) := by
  intro q b hb
  refine ⟨b, ?_, hk b⟩
  rw [upd_ne]
  · exact hb
  · rintro rfl; rw [hp] at hb; cases hb

/-- The same object. -/
def Unchanged {α : Type} (a a' : α) : Prop := a' = a

/-! The same up to the parent. -/

def ValueSpec.Kin (a b : ValueSpec) : Prop := ∃ par, b = { a with parent := par }
def TypeSpec.Kin (a b : TypeSpec) : Prop := ∃ par, b = { a with parent := par }
def FieldSpec.Kin (a b : FieldSpec) : Prop := ∃ par, b = { a with parent := par }
def InterfaceEmbed.Kin (a b : InterfaceEmbed) : Prop := ∃ par, b = { a with parent := par }
def InterfaceMethod.Kin (a b : InterfaceMethod) : Prop := ∃ par, b = { a with parent := par }
def FuncSpec.Kin (a b : FuncSpec) : Prop := ∃ par, b = { a with parent := par }

/-- What calls can do that do not change existing objects: they can make objects and set parents. -/
structure Grown (h h' : Heap) : Prop where
  next : h.next ≤ h'.next
  fresh : h'.Fresh
  files : Extends Unchanged h.files h'.files
  values : Extends ValueSpec.Kin h.values h'.values
  valueDecls : Extends Unchanged h.valueDecls h'.valueDecls
  types : Extends TypeSpec.Kin h.types h'.types
  typeDecls : Extends Unchanged h.typeDecls h'.typeDecls
  fields : Extends FieldSpec.Kin h.fields h'.fields
  embeds : Extends InterfaceEmbed.Kin h.embeds h'.embeds
  methods : Extends InterfaceMethod.Kin h.methods h'.methods
  funcs : Extends FuncSpec.Kin h.funcs h'.funcs
  blocks : Extends Unchanged h.blocks h'.blocks
  args : Extends Unchanged h.args h'.args
  templs : Extends Unchanged h.templs h'.templs

theorem Unchanged.refl {α : Type} (a : α) : Unchanged a a := rfl
theorem Unchanged.trans {α : Type} (a b c : α) (h1 : Unchanged a b) (h2 : Unchanged b c) : Unchanged a c := by
  unfold Unchanged at *; rw [h2, h1]
theorem ValueSpec.Kin.refl (a : ValueSpec) : a.Kin a := ⟨a.parent, rfl⟩
theorem TypeSpec.Kin.refl (a : TypeSpec) : a.Kin a := ⟨a.parent, rfl⟩
theorem FieldSpec.Kin.refl (a : FieldSpec) : a.Kin a := ⟨a.parent, rfl⟩
theorem InterfaceEmbed.Kin.refl (a : InterfaceEmbed) : a.Kin a := ⟨a.parent, rfl⟩
theorem InterfaceMethod.Kin.refl (a : InterfaceMethod) : a.Kin a := ⟨a.parent, rfl⟩
theorem FuncSpec.Kin.refl (a : FuncSpec) : a.Kin a := ⟨a.parent, rfl⟩
theorem ValueSpec.Kin.trans (a b c : ValueSpec) : a.Kin b → b.Kin c → a.Kin c := by
  rintro ⟨x, rfl⟩ ⟨y, rfl⟩; exact ⟨y, rfl⟩
theorem TypeSpec.Kin.trans (a b c : TypeSpec) : a.Kin b → b.Kin c → a.Kin c := by
  rintro ⟨x, rfl⟩ ⟨y, rfl⟩; exact ⟨y, rfl⟩
theorem FieldSpec.Kin.trans (a b c : FieldSpec) : a.Kin b → b.Kin c → a.Kin c := by
  rintro ⟨x, rfl⟩ ⟨y, rfl⟩; exact ⟨y, rfl⟩
theorem InterfaceEmbed.Kin.trans (a b c : InterfaceEmbed) : a.Kin b → b.Kin c → a.Kin c := by
  rintro ⟨x, rfl⟩ ⟨y, rfl⟩; exact ⟨y, rfl⟩
theorem InterfaceMethod.Kin.trans (a b c : InterfaceMethod) : a.Kin b → b.Kin c → a.Kin c := by
  rintro ⟨x, rfl⟩ ⟨y, rfl⟩; exact ⟨y, rfl⟩
theorem FuncSpec.Kin.trans (a b c : FuncSpec) : a.Kin b → b.Kin c → a.Kin c := by
  rintro ⟨x, rfl⟩ ⟨y, rfl⟩; exact ⟨y, rfl⟩

theorem Grown.refl {h : Heap} (hf : h.Fresh) : Grown h h :=
  ⟨Nat.le_refl _, hf, .refl Unchanged.refl _, .refl ValueSpec.Kin.refl _, .refl Unchanged.refl _,
    .refl TypeSpec.Kin.refl _, .refl Unchanged.refl _, .refl FieldSpec.Kin.refl _,
    .refl InterfaceEmbed.Kin.refl _, .refl InterfaceMethod.Kin.refl _, .refl FuncSpec.Kin.refl _,
    .refl Unchanged.refl _, .refl Unchanged.refl _, .refl Unchanged.refl _⟩

theorem Grown.trans {h h' h'' : Heap} (a : Grown h h') (b : Grown h' h'') : Grown h h'' :=
  ⟨Nat.le_trans a.next b.next, b.fresh, a.files.trans Unchanged.trans b.files,
    a.values.trans ValueSpec.Kin.trans b.values, a.valueDecls.trans Unchanged.trans b.valueDecls,
    a.types.trans TypeSpec.Kin.trans b.types, a.typeDecls.trans Unchanged.trans b.typeDecls,
    a.fields.trans FieldSpec.Kin.trans b.fields, a.embeds.trans InterfaceEmbed.Kin.trans b.embeds,
    a.methods.trans InterfaceMethod.Kin.trans b.methods, a.funcs.trans FuncSpec.Kin.trans b.funcs,
    a.blocks.trans Unchanged.trans b.blocks, a.args.trans Unchanged.trans b.args,
    a.templs.trans Unchanged.trans b.templs⟩

/-! Freshness of changed heaps. -/

theorem none_upd {α : Type} {m : Ptr → Option α} {n k p : Nat} {a : α}
    (h : ∀ q : Nat, n ≤ q → m q = none) (hp : p < k) (hn : n ≤ k) : ∀ q : Nat, k ≤ q → upd m p a q = none := by
  intro q hq
  rw [upd_ne _ _ (Nat.ne_of_gt (Nat.lt_of_lt_of_le hp hq))]
  exact h q (Nat.le_trans hn hq)

theorem none_le {α : Type} {m : Ptr → Option α} {n k : Nat}
    (h : ∀ q : Nat, n ≤ q → m q = none) (hn : n ≤ k) : ∀ q : Nat, k ≤ q → m q = none :=
  fun q hq => h q (by omega)

theorem lt_next {α : Type} {m : Ptr → Option α} {n p : Nat} {a : α}
    (h : ∀ q : Nat, n ≤ q → m q = none) (hp : m p = some a) : p < n := by
  rcases Nat.lt_or_ge p n with h1 | h1
  · exact h1
  · rw [h p h1] at hp; cases hp

theorem Heap.Fresh.bump {h : Heap} (hf : h.Fresh) {n : Ptr} (hn : h.next ≤ n) :
    ({ h with next := n } : Heap).Fresh := by
  constructor <;> dsimp only
  · exact none_le hf.files hn
  · exact none_le hf.values hn
  · exact none_le hf.valueDecls hn
  · exact none_le hf.types hn
  · exact none_le hf.typeDecls hn
  · exact none_le hf.fields hn
  · exact none_le hf.embeds hn
  · exact none_le hf.methods hn
  · exact none_le hf.funcs hn
  · exact none_le hf.blocks hn
  · exact none_le hf.args hn
  · exact none_le hf.templs hn

theorem Grown.bump {h : Heap} (hf : h.Fresh) {n : Ptr} (hn : h.next ≤ n) :
    Grown h { h with next := n } :=
  { Grown.refl hf with next := hn, fresh := hf.bump hn }

/-! ### Allocation, and setting what is at an address -/

theorem Heap.Fresh.setFiles {h : Heap} (hf : h.Fresh) {p : Nat} {n : Nat} (hp : p < n) (hn : h.next ≤ n)
    (a : GoFile) : ({ h with files := upd h.files p a, next := n } : Heap).Fresh :=
  { hf.bump hn with files := none_upd hf.files hp hn }

theorem Grown.allocFiles {h : Heap} (hf : h.Fresh) (a : GoFile) :
    Grown h { h with files := upd h.files h.next a, next := h.next + 1 } :=
  { Grown.refl hf with
    next := Nat.le_succ _
    fresh := hf.setFiles (Nat.lt_succ_self _) (Nat.le_succ _) a
    files := .upd Unchanged.refl (hf.files _ (Nat.le_refl _)) a }

theorem Heap.Fresh.setValues {h : Heap} (hf : h.Fresh) {p : Nat} {n : Nat} (hp : p < n) (hn : h.next ≤ n)
    (a : ValueSpec) : ({ h with values := upd h.values p a, next := n } : Heap).Fresh :=
  { hf.bump hn with values := none_upd hf.values hp hn }

theorem Grown.allocValues {h : Heap} (hf : h.Fresh) (a : ValueSpec) :
    Grown h { h with values := upd h.values h.next a, next := h.next + 1 } :=
  { Grown.refl hf with
    next := Nat.le_succ _
    fresh := hf.setValues (Nat.lt_succ_self _) (Nat.le_succ _) a
    values := .upd ValueSpec.Kin.refl (hf.values _ (Nat.le_refl _)) a }

theorem Heap.Fresh.setValueDecls {h : Heap} (hf : h.Fresh) {p : Nat} {n : Nat} (hp : p < n) (hn : h.next ≤ n)
    (a : ValueDecl) : ({ h with valueDecls := upd h.valueDecls p a, next := n } : Heap).Fresh :=
  { hf.bump hn with valueDecls := none_upd hf.valueDecls hp hn }

theorem Grown.allocValueDecls {h : Heap} (hf : h.Fresh) (a : ValueDecl) :
    Grown h { h with valueDecls := upd h.valueDecls h.next a, next := h.next + 1 } :=
  { Grown.refl hf with
    next := Nat.le_succ _
    fresh := hf.setValueDecls (Nat.lt_succ_self _) (Nat.le_succ _) a
    valueDecls := .upd Unchanged.refl (hf.valueDecls _ (Nat.le_refl _)) a }

theorem Heap.Fresh.setTypes {h : Heap} (hf : h.Fresh) {p : Nat} {n : Nat} (hp : p < n) (hn : h.next ≤ n)
    (a : TypeSpec) : ({ h with types := upd h.types p a, next := n } : Heap).Fresh :=
  { hf.bump hn with types := none_upd hf.types hp hn }

theorem Grown.allocTypes {h : Heap} (hf : h.Fresh) (a : TypeSpec) :
    Grown h { h with types := upd h.types h.next a, next := h.next + 1 } :=
  { Grown.refl hf with
    next := Nat.le_succ _
    fresh := hf.setTypes (Nat.lt_succ_self _) (Nat.le_succ _) a
    types := .upd TypeSpec.Kin.refl (hf.types _ (Nat.le_refl _)) a }

theorem Heap.Fresh.setTypeDecls {h : Heap} (hf : h.Fresh) {p : Nat} {n : Nat} (hp : p < n) (hn : h.next ≤ n)
    (a : TypeDecl) : ({ h with typeDecls := upd h.typeDecls p a, next := n } : Heap).Fresh :=
  { hf.bump hn with typeDecls := none_upd hf.typeDecls hp hn }

theorem Grown.allocTypeDecls {h : Heap} (hf : h.Fresh) (a : TypeDecl) :
    Grown h { h with typeDecls := upd h.typeDecls h.next a, next := h.next + 1 } :=
  { Grown.refl hf with
    next := Nat.le_succ _
    fresh := hf.setTypeDecls (Nat.lt_succ_self _) (Nat.le_succ _) a
    typeDecls := .upd Unchanged.refl (hf.typeDecls _ (Nat.le_refl _)) a }

theorem Heap.Fresh.setFields {h : Heap} (hf : h.Fresh) {p : Nat} {n : Nat} (hp : p < n) (hn : h.next ≤ n)
    (a : FieldSpec) : ({ h with fields := upd h.fields p a, next := n } : Heap).Fresh :=
  { hf.bump hn with fields := none_upd hf.fields hp hn }

theorem Grown.allocFields {h : Heap} (hf : h.Fresh) (a : FieldSpec) :
    Grown h { h with fields := upd h.fields h.next a, next := h.next + 1 } :=
  { Grown.refl hf with
    next := Nat.le_succ _
    fresh := hf.setFields (Nat.lt_succ_self _) (Nat.le_succ _) a
    fields := .upd FieldSpec.Kin.refl (hf.fields _ (Nat.le_refl _)) a }

theorem Heap.Fresh.setEmbeds {h : Heap} (hf : h.Fresh) {p : Nat} {n : Nat} (hp : p < n) (hn : h.next ≤ n)
    (a : InterfaceEmbed) : ({ h with embeds := upd h.embeds p a, next := n } : Heap).Fresh :=
  { hf.bump hn with embeds := none_upd hf.embeds hp hn }

theorem Grown.allocEmbeds {h : Heap} (hf : h.Fresh) (a : InterfaceEmbed) :
    Grown h { h with embeds := upd h.embeds h.next a, next := h.next + 1 } :=
  { Grown.refl hf with
    next := Nat.le_succ _
    fresh := hf.setEmbeds (Nat.lt_succ_self _) (Nat.le_succ _) a
    embeds := .upd InterfaceEmbed.Kin.refl (hf.embeds _ (Nat.le_refl _)) a }

theorem Heap.Fresh.setMethods {h : Heap} (hf : h.Fresh) {p : Nat} {n : Nat} (hp : p < n) (hn : h.next ≤ n)
    (a : InterfaceMethod) : ({ h with methods := upd h.methods p a, next := n } : Heap).Fresh :=
  { hf.bump hn with methods := none_upd hf.methods hp hn }

theorem Grown.allocMethods {h : Heap} (hf : h.Fresh) (a : InterfaceMethod) :
    Grown h { h with methods := upd h.methods h.next a, next := h.next + 1 } :=
  { Grown.refl hf with
    next := Nat.le_succ _
    fresh := hf.setMethods (Nat.lt_succ_self _) (Nat.le_succ _) a
    methods := .upd InterfaceMethod.Kin.refl (hf.methods _ (Nat.le_refl _)) a }

theorem Heap.Fresh.setFuncs {h : Heap} (hf : h.Fresh) {p : Nat} {n : Nat} (hp : p < n) (hn : h.next ≤ n)
    (a : FuncSpec) : ({ h with funcs := upd h.funcs p a, next := n } : Heap).Fresh :=
  { hf.bump hn with funcs := none_upd hf.funcs hp hn }

theorem Grown.allocFuncs {h : Heap} (hf : h.Fresh) (a : FuncSpec) :
    Grown h { h with funcs := upd h.funcs h.next a, next := h.next + 1 } :=
  { Grown.refl hf with
    next := Nat.le_succ _
    fresh := hf.setFuncs (Nat.lt_succ_self _) (Nat.le_succ _) a
    funcs := .upd FuncSpec.Kin.refl (hf.funcs _ (Nat.le_refl _)) a }

theorem Heap.Fresh.setBlocks {h : Heap} (hf : h.Fresh) {p : Nat} {n : Nat} (hp : p < n) (hn : h.next ≤ n)
    (a : CodeBlock) : ({ h with blocks := upd h.blocks p a, next := n } : Heap).Fresh :=
  { hf.bump hn with blocks := none_upd hf.blocks hp hn }

theorem Grown.allocBlocks {h : Heap} (hf : h.Fresh) (a : CodeBlock) :
    Grown h { h with blocks := upd h.blocks h.next a, next := h.next + 1 } :=
  { Grown.refl hf with
    next := Nat.le_succ _
    fresh := hf.setBlocks (Nat.lt_succ_self _) (Nat.le_succ _) a
    blocks := .upd Unchanged.refl (hf.blocks _ (Nat.le_refl _)) a }

theorem Heap.Fresh.setArgs {h : Heap} (hf : h.Fresh) {p : Nat} {n : Nat} (hp : p < n) (hn : h.next ≤ n)
    (a : List Arg) : ({ h with args := upd h.args p a, next := n } : Heap).Fresh :=
  { hf.bump hn with args := none_upd hf.args hp hn }

theorem Grown.allocArgs {h : Heap} (hf : h.Fresh) (a : List Arg) :
    Grown h { h with args := upd h.args h.next a, next := h.next + 1 } :=
  { Grown.refl hf with
    next := Nat.le_succ _
    fresh := hf.setArgs (Nat.lt_succ_self _) (Nat.le_succ _) a
    args := .upd Unchanged.refl (hf.args _ (Nat.le_refl _)) a }

theorem Heap.Fresh.setTempls {h : Heap} (hf : h.Fresh) {p : Nat} {n : Nat} (hp : p < n) (hn : h.next ≤ n)
    (a : Templ) : ({ h with templs := upd h.templs p a, next := n } : Heap).Fresh :=
  { hf.bump hn with templs := none_upd hf.templs hp hn }

theorem Grown.allocTempls {h : Heap} (hf : h.Fresh) (a : Templ) :
    Grown h { h with templs := upd h.templs h.next a, next := h.next + 1 } :=
  { Grown.refl hf with
    next := Nat.le_succ _
    fresh := hf.setTempls (Nat.lt_succ_self _) (Nat.le_succ _) a
    templs := .upd Unchanged.refl (hf.templs _ (Nat.le_refl _)) a }

end Gopoet
