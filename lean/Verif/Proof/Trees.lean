import Verif.Proof.Termination
/-!
# Data and types that are trees have no cycles
-/

namespace Gopoet

set_option linter.unusedSectionVars false

/-- `x` leads to no cycle and to no free address. -/
def Mem.Fine (m : Mem) (x : Node) : Prop := m.Ends x ∧ m.Sound x

theorem Mem.Fine.intro {m : Mem} {x : Node} (h1 : ∀ a, m.Uses x a → a < m.next) (h2 : ∀ y, m.Holds x y → m.Fine y) :
    m.Fine x := by
  refine ⟨⟨_, fun y hy => (h2 y hy).1⟩, fun y hy a ha => ?_⟩
  rcases Relation.ReflTransGen.cases_head hy with rfl | ⟨z, hz, hzy⟩
  · exact h1 a ha
  · exact (h2 z hz).2 y hzy a ha

/-- Something that has neither addresses nor parts. -/
theorem Mem.Fine.leaf {m : Mem} {x : Node} (h1 : ∀ a, ¬ m.Uses x a) (h2 : ∀ y, ¬ m.Holds x y) : m.Fine x :=
  .intro (fun a ha => absurd ha (h1 a)) fun y hy => absurd hy (h2 y)

theorem Mem.Item.mem {m : Mem} {s : Slice} {x : Elem} (hx : m.Item s x) {l : List Elem}
    (hl : Part.elems m.cells s = some l) : x ∈ l := by
  obtain @⟨l0, k, _, h1, h2, h3⟩ := hx
  unfold Part.elems at hl
  rw [if_neg (by omega), h1] at hl
  dsimp only at hl
  split at hl
  · cases hl
    refine List.mem_of_getElem? (i := k) ?_
    rw [List.getElem?_take, if_pos h2, List.getElem?_drop, h3]
  · cases hl

section
variable {m : Mem} (hg : m.Good)
include hg

theorem within_of_elems {s : Slice} {l : List Elem} (hl : Part.elems m.cells s = some l) (hs : s.len ≠ 0) :
    s.arr < m.next := by
  unfold Part.elems at hl
  rw [if_neg hs] at hl
  split at hl
  · rename_i h
    exact hg.lt h
  · cases hl

mutual
theorem fine_type : ∀ (t : TypeName) (v : MType), Part.Type m.cells t v → m.Fine (.type v)
  | .nil, v, h => by
    cases v <;> simp only [Part.Type] at h
    exact .leaf (fun a h => by cases h) fun y h => by cases h
  | .basic k, v, h => by
    cases v <;> simp only [Part.Type] at h
    exact .leaf (fun a h => by cases h) fun y h => by cases h
  | .named s, v, h => by
    cases v <;> simp only [Part.Type] at h
    exact .intro (fun a ha => by cases ha; exact hg.lt h) fun y h => by cases h
  | .ptr t, v, h => by
    cases v <;> simp only [Part.Type] at h
    exact .intro (fun a h => by cases h) fun y hy => by cases hy; exact fine_type t _ h
  | .slice t, v, h => by
    cases v <;> simp only [Part.Type] at h
    exact .intro (fun a h => by cases h) fun y hy => by cases hy; exact fine_type t _ h
  | .array t n, v, h => by
    cases v <;> simp only [Part.Type] at h
    exact .intro (fun a h => by cases h) fun y hy => by cases hy; exact fine_type t _ h.2
  | .chan t d, v, h => by
    cases v <;> simp only [Part.Type] at h
    exact .intro (fun a h => by cases h) fun y hy => by cases hy; exact fine_type t _ h.2
  | .map t k, v, h => by
    cases v <;> simp only [Part.Type] at h
    exact .intro (fun a h => by cases h) fun y hy => by
      cases hy
      · exact fine_type t _ h.1
      · exact fine_type k _ h.2
  | .func sig, v, h => by
    cases v <;> simp only [Part.Type] at h
    obtain ⟨s, hp, hs⟩ := h
    refine .intro (fun a ha => by cases ha; exact hg.lt hp) fun y hy => ?_
    cases hy with
    | func h =>
      rw [hp] at h
      cases h
      exact fine_sig sig s hs
  | .struct fields, v, h => by
    cases v <;> simp only [Part.Type] at h
    obtain ⟨s, l, hp, hl, hf⟩ := h
    refine .intro (fun a ha => ?_) fun y hy => ?_
    · cases ha with
      | struct => exact hg.lt hp
      | fields h h0 =>
        rw [hp] at h
        cases h
        exact within_of_elems hg hl h0
    · cases hy with
      | fieldType h hx =>
        rw [hp] at h
        cases h
        exact fine_fields fields l hf _ (hx.mem hl) _ _ _ rfl
  | .interface methods embeds, v, h => by
    cases v <;> simp only [Part.Type] at h
    obtain ⟨ms, es, l, l', hp, hl, hf, -⟩ := h
    refine .intro (fun a ha => ?_) fun y hy => ?_
    · cases ha with
      | interface => exact hg.lt hp
      | methods h h0 =>
        rw [hp] at h
        cases h
        exact within_of_elems hg hl h0
    · cases hy with
      | methodSig h hx =>
        rw [hp] at h
        cases h
        exact fine_methods methods l hf _ (hx.mem hl) _ _ rfl
theorem fine_sig : ∀ (sig : Signature) (s : MSig), Part.Sig m.cells sig s → m.Fine (.sig s)
  | ⟨args, results, v⟩, s, h => by
    simp only [Part.Sig] at h
    obtain ⟨-, l, l', hl, ha, hl', hr⟩ := h
    refine .intro (fun a h => ?_) fun y hy => ?_
    · cases h with
      | args h0 => exact within_of_elems hg hl h0
      | results h0 => exact within_of_elems hg hl' h0
    · cases hy with
      | arg hx => exact fine_args args l ha _ (hx.mem hl) _ _ rfl
      | result hx => exact fine_args results l' hr _ (hx.mem hl') _ _ rfl
theorem fine_args : ∀ (args : List ArgType) (l : List Elem), Part.Args m.cells args l →
    ∀ x ∈ l, ∀ n v, x = .arg n v → m.Fine (.type v)
  | [], l, h, x, hx, n, v, e => by
    cases l <;> simp only [Part.Args] at h
    cases hx
  | ⟨n', t⟩ :: args, l, h, x, hx, n, v, e => by
    subst e
    cases l with
    | nil => simp only [Part.Args] at h
    | cons y l =>
      cases y <;> simp only [Part.Args] at h
      rcases List.mem_cons.1 hx with hx | hx
      · cases hx
        exact fine_type t v h.2.1
      · exact fine_args args l h.2.2 _ hx n v rfl
theorem fine_fields : ∀ (fields : List FieldType) (l : List Elem), Part.Fields m.cells fields l →
    ∀ x ∈ l, ∀ n v tag, x = .field n v tag → m.Fine (.type v)
  | [], l, h, x, hx, n, v, tag, e => by
    cases l <;> simp only [Part.Fields] at h
    cases hx
  | ⟨n', t, _⟩ :: fields, l, h, x, hx, n, v, tag, e => by
    subst e
    cases l with
    | nil => simp only [Part.Fields] at h
    | cons y l =>
      cases y <;> simp only [Part.Fields] at h
      rcases List.mem_cons.1 hx with hx | hx
      · cases hx
        exact fine_type t v h.2.2.1
      · exact fine_fields fields l h.2.2.2 _ hx n v tag rfl
theorem fine_methods : ∀ (methods : List MethodType) (l : List Elem), Part.Methods m.cells methods l →
    ∀ x ∈ l, ∀ n s, x = .method n s → m.Fine (.sig s)
  | [], l, h, x, hx, n, v, e => by
    cases l <;> simp only [Part.Methods] at h
    cases hx
  | ⟨n', sg⟩ :: methods, l, h, x, hx, n, s, e => by
    subst e
    cases l with
    | nil => simp only [Part.Methods] at h
    | cons y l =>
      cases y <;> simp only [Part.Methods] at h
      rcases List.mem_cons.1 hx with hx | hx
      · cases hx
        exact fine_sig sg s h.2.1
      · exact fine_methods methods l h.2.2 _ hx n s rfl
end

mutual
theorem fine_data : ∀ (t : TVal) (v : DVal), Part.Data m.cells t v → m.Fine (.data v)
  | .scalar n, v, h | .package n, v, h | .symbol n, v, h | .mref n, v, h | .spec n, v, h | .specCopy n _, v, h
  | .embed n, v, h | .imports, v, h | .reflectType n, v, h | .goType n, v, h | .goObject n, v, h
  | .goPackage n, v, h | .typeName n, v, h => by
    cases v <;> simp only [Part.Data] at h
    exact .leaf (fun a h => by cases h) fun y h => by cases h
  | .signature sig, v, h => by
    cases v <;> simp only [Part.Data] at h
    exact .intro (fun a h => by cases h) fun y hy => by
      cases hy
      exact fine_sig hg sig _ h
  | .method mt, v, h => by
    cases v <;> simp only [Part.Data] at h
    exact .intro (fun a h => by cases h) fun y hy => by
      cases hy
      exact fine_sig hg _ _ h.2.2.2
  | .iface acc t, v, h => by
    cases v with
    | iface acc' v =>
      simp only [Part.Data] at h
      refine .intro (fun a h => by cases h) fun y hy => ?_
      cases hy with
      | iface => exact fine_data t v h.2.2
      | typeName =>
        have h := h.2.2
        cases t <;> simp only [Part.Data] at h
        exact fine_type hg _ _ h
    | _ => simp only [Part.Data] at h
  | .ptr t, v, h => by
    cases v <;> simp only [Part.Data] at h
    obtain ⟨v, hv, hd⟩ := h
    refine .intro (fun a h => ?_) fun y hy => ?_
    · cases h
      unfold Part.dataAt at hv
      split at hv
      · rename_i hc
        exact hg.lt hc
      · cases hv
    · cases hy with
      | ptr h =>
        rw [hv] at h
        cases h
        exact fine_data t v hd
  | .struct fs, v, h => by
    cases v <;> simp only [Part.Data] at h
    refine .intro (fun a h => by cases h) fun y hy => ?_
    cases hy with
    | field hx => exact fine_dataFields fs _ h _ _ hx
  | .array vs, v, h => by
    cases v <;> simp only [Part.Data] at h
    refine .intro (fun a h => by cases h) fun y hy => ?_
    cases hy with
    | elem hx => exact fine_dataElems vs _ h _ hx
  | .slice vs, v, h => by
    cases v <;> simp only [Part.Data] at h
    obtain ⟨l, hl, hd⟩ := h
    refine .intro (fun a h => ?_) fun y hy => ?_
    · cases h with
      | slice h0 => exact within_of_elems hg hl h0
    · cases hy with
      | item hx =>
        have := hx.mem hl
        obtain ⟨w, hw, e⟩ := List.mem_map.1 this
        cases e
        exact fine_dataElems vs l hd _ hw
  | .map es, v, h => by
    cases v <;> simp only [Part.Data] at h
    obtain ⟨l, hl, hd, -⟩ := h
    refine .intro (fun a h => ?_) fun y hy => ?_
    · cases h
      exact hg.lt hl
    · cases hy with
      | key h1 h2 =>
        rw [hl] at h1
        cases h1
        exact (fine_dataEntries es l hd _ _ h2).1
      | value h1 h2 =>
        rw [hl] at h1
        cases h1
        exact (fine_dataEntries es l hd _ _ h2).2
theorem fine_dataFields : ∀ (fs : List (Bool × TVal)) (l : List (Bool × DVal)), Part.DataFields m.cells fs l →
    ∀ e v, (e, v) ∈ l → m.Fine (.data v)
  | [], l, h, e, v, hx => by
    cases l <;> simp only [Part.DataFields] at h
    cases hx
  | (e', t) :: fs, l, h, e, v, hx => by
    cases l with
    | nil => simp only [Part.DataFields] at h
    | cons y l =>
      simp only [Part.DataFields] at h
      rcases List.mem_cons.1 hx with hx | hx
      · cases hx
        exact fine_data t v h.2.1
      · exact fine_dataFields fs l h.2.2 e v hx
theorem fine_dataElems : ∀ (vs : List TVal) (l : List DVal), Part.DataElems m.cells vs l →
    ∀ v ∈ l, m.Fine (.data v)
  | [], l, h, v, hx => by
    cases l <;> simp only [Part.DataElems] at h
    cases hx
  | t :: vs, l, h, v, hx => by
    cases l with
    | nil => simp only [Part.DataElems] at h
    | cons y l =>
      simp only [Part.DataElems] at h
      rcases List.mem_cons.1 hx with hx | hx
      · cases hx
        exact fine_data t v h.1
      · exact fine_dataElems vs l h.2 v hx
theorem fine_dataEntries : ∀ (es : List (TVal × TVal)) (l : List (DVal × DVal)), Part.DataEntries m.cells es l →
    ∀ k v, (k, v) ∈ l → m.Fine (.data k) ∧ m.Fine (.data v)
  | [], l, h, k, v, hx => by
    cases l <;> simp only [Part.DataEntries] at h
    cases hx
  | (tk, t) :: es, l, h, k, v, hx => by
    cases l with
    | nil => simp only [Part.DataEntries] at h
    | cons y l =>
      simp only [Part.DataEntries] at h
      rcases List.mem_cons.1 hx with hx | hx
      · cases hx
        exact ⟨fine_data tk k h.1, fine_data t v h.2.1⟩
      · exact fine_dataEntries es l h.2.2 k v hx
end

end

end Gopoet
