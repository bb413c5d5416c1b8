import Mathlib.Tactic.Tauto
import Verif.Proof.DataLemmas
import Verif.Spec.Copyable
/-! When the qualification of template data gives the data with the names of the imports. -/

namespace Gopoet
open Imports

/-! ### Data that stays as it is -/

mutual
theorem preserved_of_same (H : Heap) (n : GoString → GoString) : ∀ v : TVal, v.requalify H n = v → v.Preserved H n
  | .iface acc v, h => by
    by_cases hc : v.isConv = true
    · cases v <;> simp only [TVal.isConv, Bool.false_eq_true] at hc <;> simp [TVal.Preserved]
    · rw [requalify_iface _ _ _ (by simpa using hc)] at h
      rw [TVal.Preserved]
      exact preserved_of_same H n v (by simpa using h)
  | .ptr v, h => by
    rw [TVal.requalify] at h
    have h : v.requalify H n = v := by simpa using h
    rw [TVal.Preserved]
    exact ⟨preserved_of_same H n v h, fun hn => absurd h hn⟩
  | .struct fs, h => by
    rw [TVal.requalify] at h
    rw [TVal.Preserved]
    exact preserved_of_same_fields H n fs (by simpa using h)
  | .array fs, h => by
    rw [TVal.requalify] at h
    rw [TVal.Preserved]
    exact preserved_of_same_elems H n fs (by simpa using h)
  | .slice fs, h => by
    rw [TVal.requalify] at h
    rw [TVal.Preserved]
    exact preserved_of_same_elems H n fs (by simpa using h)
  | .map es, h => by
    rw [TVal.requalify] at h
    have h : requalifyEntries H n es = es := by simpa using h
    rw [TVal.Preserved]
    exact ⟨preserved_of_same_entries H n es h, fun hn => absurd h hn⟩
  | .package _, _ | .symbol _, _ | .mref _, _ | .signature _, _ | .spec _, _ | .specCopy _ _, _ | .embed _, _
  | .method _, _ | .scalar _, _ | .imports, _ | .typeName _, _ | .reflectType _, _ | .goType _, _
  | .goObject _, _ | .goPackage _, _ => by simp [TVal.Preserved]
theorem preserved_of_same_fields (H : Heap) (n : GoString → GoString) : ∀ fs, requalifyFields H n fs = fs → PreservedFields H n fs
  | [], _ => by simp [PreservedFields]
  | (e, v) :: fs, h => by
    simp only [requalifyFields, List.cons.injEq, Prod.mk.injEq, true_and] at h
    rw [PreservedFields]
    exact ⟨preserved_of_same H n v h.1, preserved_of_same_fields H n fs h.2⟩
theorem preserved_of_same_elems (H : Heap) (n : GoString → GoString) : ∀ vs, requalifyElems H n vs = vs → PreservedElems H n vs
  | [], _ => by simp [PreservedElems]
  | v :: vs, h => by
    simp only [requalifyElems, List.cons.injEq] at h
    rw [PreservedElems]
    exact ⟨preserved_of_same H n v h.1, preserved_of_same_elems H n vs h.2⟩
theorem preserved_of_same_entries (H : Heap) (n : GoString → GoString) : ∀ es, requalifyEntries H n es = es → PreservedEntries H n es
  | [], _ => by simp [PreservedEntries]
  | (k, v) :: es, h => by
    simp only [requalifyEntries, List.cons.injEq, Prod.mk.injEq] at h
    rw [PreservedEntries]
    exact ⟨preserved_of_same H n k h.1.1, preserved_of_same H n v h.1.2, preserved_of_same_entries H n es h.2⟩
end

/-! ### Maps -/

theorem length_setMapIndex : ∀ (m : List (TVal × TVal)) (k v : TVal),
    (setMapIndex m k v).length ≤ m.length + 1 ∧
    ((setMapIndex m k v).length = m.length + 1 → m.all (fun e => !e.1.keyEq k) = true ∧ setMapIndex m k v = m ++ [(k, v)])
  | [], k, v => by simp [setMapIndex]
  | e :: m, k, v => by
    rw [setMapIndex]
    obtain ⟨h1, h2⟩ := length_setMapIndex m k v
    by_cases h : e.1.keyEq k = true
    · simp [h]
    · simp only [h, Bool.false_eq_true, if_false, List.length_cons]
      refine ⟨by omega, fun hl => ?_⟩
      obtain ⟨a, b⟩ := h2 (by omega)
      exact ⟨by simp [a, h], by rw [b]; rfl⟩

theorem keysDistinct_append : ∀ (l m : List (TVal × TVal)), keysDistinct (l ++ m) = true ↔
    keysDistinct l = true ∧ keysDistinct m = true ∧ ∀ e ∈ l, m.all (fun x => !e.1.keyEq x.1) = true
  | [], m => by simp [keysDistinct]
  | e :: l, m => by
    simp only [List.cons_append, keysDistinct, List.all_append, Bool.and_eq_true, keysDistinct_append l m,
      List.forall_mem_cons]
    tauto

/-- if nothing is lost, then the keys are distinct -/
theorem foldl_setMapIndex_length : ∀ (es m : List (TVal × TVal)), keysDistinct m = true →
    (es.foldl (fun m e => setMapIndex m e.1 e.2) m).length ≤ m.length + es.length ∧
    ((es.foldl (fun m e => setMapIndex m e.1 e.2) m).length = m.length + es.length → keysDistinct (m ++ es) = true)
  | [], m, hm => by simp [hm]
  | (k, v) :: es, m, hm => by
    rw [List.foldl_cons]
    obtain ⟨h1, h2⟩ := length_setMapIndex m k v
    dsimp only at h1 h2 ⊢
    have key : (setMapIndex m k v).length = m.length + 1 → keysDistinct (setMapIndex m k v) = true := by
      intro hl
      obtain ⟨ha, hb⟩ := h2 hl
      rw [hb, keysDistinct_append]
      refine ⟨hm, by simp [keysDistinct], fun e he => ?_⟩
      simpa using (List.all_eq_true.1 ha) e he
    have shorter : ∀ (l m : List (TVal × TVal)),
        (l.foldl (fun m e => setMapIndex m e.1 e.2) m).length ≤ m.length + l.length := by
      intro l
      induction l with
      | nil => intro m; simp
      | cons e l ih =>
        intro m
        rw [List.foldl_cons]
        have := ih (setMapIndex m e.1 e.2)
        have := (length_setMapIndex m e.1 e.2).1
        simp only [List.length_cons]
        omega
    have := shorter es (setMapIndex m k v)
    simp only [List.length_cons]
    refine ⟨by omega, fun hl => ?_⟩
    have hl' : (setMapIndex m k v).length = m.length + 1 := by omega
    obtain ⟨-, b⟩ := foldl_setMapIndex_length es (setMapIndex m k v) (key hl')
    have := b (by omega)
    rw [(h2 hl').2] at this
    simpa using this

/-! ### The result -/

/-- The result is right exactly if nothing gets lost. -/
def Rebuilt (h : Heap) (v : TVal) (k : Imports) (r : TVal × Bool) : Prop :=
  (r.1.isIface = v.isIface ∧ r.1.inIface.isIface = false) ∧ (r.1 = v.requalify h k.qualifierOf ↔ v.Preserved h k.qualifierOf)

theorem isIface_requalify (H : Heap) (n : GoString → GoString) (v : TVal) : (v.requalify H n).isIface = v.isIface := by
  cases v
  case iface acc v =>
    by_cases hc : v.isConv = true
    · cases v <;> simp only [TVal.isConv, Bool.false_eq_true] at hc
      case goPackage => rw [TVal.requalify]; split <;> rfl
      case typeName => rw [TVal.requalify, requalifyConverted]; split <;> rfl
      case reflectType t =>
        rw [TVal.requalify]
        cases typeNameForReflectType t <;> simp only [requalifyConverted]
        · split <;> rfl
      case goType t =>
        rw [TVal.requalify]
        cases typeNameForGoType t <;> simp only [requalifyConverted]
        · split <;> rfl
      case goObject o =>
        rw [TVal.requalify]
        cases symbolForGoObject o with
        | ok s => cases s <;> rw [requalifyObject] <;> split <;> rfl
        | panic => rfl
        | hang => rfl
    · rw [requalify_iface _ _ _ (by simpa using hc)]; rfl
  case spec r =>
    rw [TVal.requalify]
    cases r.package H with
    | none => rfl
    | some p => dsimp only; split <;> rfl
  all_goals first
    | rw [TVal.requalify]; rfl
    | (rw [TVal.requalify] <;> simp)

theorem inIface_requalify_flat (H : Heap) (n : GoString → GoString) (v : TVal) (hv : v.flatIfaces = true) :
    (v.requalify H n).inIface.isIface = false := by
  cases v
  case iface acc v =>
    by_cases hc : v.isConv = true
    · cases v <;> simp only [TVal.isConv, Bool.false_eq_true] at hc
      case goPackage => rw [TVal.requalify]; split <;> rfl
      case typeName => rw [TVal.requalify, requalifyConverted]; split <;> rfl
      case reflectType t =>
        rw [TVal.requalify]
        cases typeNameForReflectType t <;> simp only [requalifyConverted]
        · split <;> rfl
        all_goals rfl
      case goType t =>
        rw [TVal.requalify]
        cases typeNameForGoType t <;> simp only [requalifyConverted]
        · split <;> rfl
        all_goals rfl
      case goObject o =>
        rw [TVal.requalify]
        cases symbolForGoObject o with
        | ok s => cases s <;> rw [requalifyObject] <;> split <;> rfl
        | panic => rfl
        | hang => rfl
    · rw [requalify_iface _ _ _ (by simpa using hc)]
      simp only [TVal.flatIfaces, Bool.and_eq_true, Bool.not_eq_true'] at hv
      simpa [TVal.inIface, isIface_requalify] using hv.1
  case spec r =>
    rw [TVal.requalify]
    cases r.package H with
    | none => rfl
    | some p => dsimp only; split <;> rfl
  all_goals (rw [TVal.requalify] <;> simp [TVal.inIface, TVal.isIface])

theorem rebuilt_leaf (h : Heap) (addr : Bool) {v : TVal} (hv : v.validTypes = true)
    (hi : v.flatIfaces = true) (hf : v.flatPtrs = true) (hd : ∀ n, (v.requalify h n).distinctKeys = true) (hp : ∀ n, v.Preserved h n) :
    Post (Rebuilt h v) (qualifyData h addr v) :=
  (post_qualifyData h addr v hv).mono fun k r hr => by
    have := hr.2 hf (hd _)
    exact ⟨by rw [this, isIface_requalify]; exact ⟨rfl, inIface_requalify_flat _ _ _ hi⟩, by simp [this, hp]⟩

/-- see `Rebuilt` -/
def RebuiltFields (h : Heap) (fs : List (Bool × TVal)) (k : Imports) (r : List (Bool × TVal) × Bool) : Prop :=
  r.1 = requalifyFields h k.qualifierOf fs ↔ PreservedFields h k.qualifierOf fs
/-- see `Rebuilt` -/
def RebuiltElems (h : Heap) (vs : List TVal) (k : Imports) (r : List TVal × Bool) : Prop :=
  r.1 = requalifyElems h k.qualifierOf vs ↔ PreservedElems h k.qualifierOf vs
/-- see `Rebuilt` -/
def RebuiltEntries (h : Heap) (es : List (TVal × TVal)) (k : Imports) (r : List (TVal × TVal) × Bool) : Prop :=
  r.1.length = es.length ∧ (r.1 = requalifyEntries h k.qualifierOf es ↔ PreservedEntries h k.qualifierOf es)

theorem length_requalifyEntries (H : Heap) (n : GoString → GoString) : ∀ es, (requalifyEntries H n es).length = es.length
  | [] => by simp [requalifyEntries]
  | (k, v) :: es => by simp [requalifyEntries, length_requalifyEntries H n es]

theorem Post.and {α : Type} {F G : Imports → α → Prop} {x : IM α} (hf : Post F x) (hg : Post G x) :
    Post (fun k a => F k a ∧ G k a) x :=
  fun i j a e => ⟨(hf i j a e).1, fun k hk => ⟨(hf i j a e).2 k hk, (hg i j a e).2 k hk⟩⟩

mutual
theorem rebuilt_qualifyData (h : Heap) : ∀ (addr : Bool) (v : TVal), v.validTypes = true →
    v.flatIfaces = true → Post (Rebuilt h v) (qualifyData h addr v)
  | addr, .iface acc v, hv, hn => by
    by_cases hc : v.isConv = true
    · refine rebuilt_leaf h addr hv hn ?_ ?_ ?_
      · cases v <;> simp only [TVal.isConv, Bool.false_eq_true] at hc <;> simp [TVal.flatPtrs]
      · intro n
        cases v <;> simp only [TVal.isConv, Bool.false_eq_true] at hc
        case goPackage => rw [TVal.requalify]; split <;> simp [TVal.distinctKeys]
        case typeName => rw [TVal.requalify, requalifyConverted]; split <;> simp [TVal.distinctKeys]
        case reflectType t =>
          rw [TVal.requalify]
          cases typeNameForReflectType t <;> simp only [requalifyConverted]
          · split <;> simp [TVal.distinctKeys]
          all_goals simp [TVal.distinctKeys]
        case goType t =>
          rw [TVal.requalify]
          cases typeNameForGoType t <;> simp only [requalifyConverted]
          · split <;> simp [TVal.distinctKeys]
          all_goals simp [TVal.distinctKeys]
        case goObject o =>
          rw [TVal.requalify]
          cases symbolForGoObject o with
          | ok s => cases s <;> rw [requalifyObject] <;> split <;> simp [TVal.distinctKeys]
          | panic => simp [requalifyObject, TVal.distinctKeys]
          | hang => simp [requalifyObject, TVal.distinctKeys]
      · intro n
        cases v <;> simp only [TVal.isConv, Bool.false_eq_true] at hc <;> simp [TVal.Preserved]
    · have hc : v.isConv = false := by simpa using hc
      rw [qualifyData_iface _ _ _ hc]
      rw [validTypes_iface _ hc] at hv
      simp only [TVal.flatIfaces, Bool.and_eq_true] at hn
      refine .bind (rebuilt_qualifyData h false v hv hn.2) fun r => .pure fun k hk => ?_
      obtain ⟨v', c⟩ := r
      simp only [Bool.not_eq_true'] at hn
      refine ⟨⟨rfl, by rw [← hn.1]; exact hk.1.1⟩, ?_⟩
      rw [requalify_iface _ _ _ hc, TVal.Preserved, ← hk.2]
      simp
  | addr, .ptr v, hv, hn => by
    have hv : v.validTypes = true := by simpa [TVal.validTypes] using hv
    have hn : v.flatIfaces = true := by simpa [TVal.flatIfaces] using hn
    rw [qualifyData]
    refine .bind (.and (rebuilt_qualifyData h true v hv hn) (post_qualifyData h true v hv)) fun r => .pure fun k hk => ?_
    obtain ⟨v', c⟩ := r
    obtain ⟨⟨⟨hi, hin⟩, hr⟩, ⟨hc, -⟩⟩ := hk
    dsimp only at hi hr hc hin ⊢
    refine ⟨⟨rfl, rfl⟩, ?_⟩
    rw [TVal.requalify, TVal.Preserved, TVal.ptr.injEq, ← hr]
    cases c with
    | false =>
      have := hc.1 rfl
      simp [this]
    | true =>
      have hne : v.requalify h k.qualifierOf ≠ v := fun he => absurd (hc.2 he) (by simp)
      simp only [if_true]
      cases hv' : v.isIface with
      | false =>
        rw [hv'] at hi
        have : v'.inIface = v' := by cases v' <;> first | rfl | simp [TVal.isIface] at hi
        simp [this]
      | true =>
        constructor
        · intro he
          have := hin
          rw [he, isIface_requalify, hv'] at this
          simp at this
        · rintro ⟨-, h2⟩
          exact absurd (h2 hne) (by simp)
  | addr, .struct fs, hv, hn => by
    rw [qualifyData]
    refine .bind (rebuilt_qualifyDataFields h addr false false fs
      (by simpa [TVal.validTypes] using hv) (by simpa [TVal.flatIfaces] using hn)) fun r => .pure fun k hk => ?_
    obtain ⟨v', c⟩ := r
    refine ⟨⟨rfl, rfl⟩, ?_⟩
    rw [TVal.requalify, TVal.Preserved, TVal.struct.injEq]
    exact hk
  | addr, .array fs, hv, hn => by
    rw [qualifyData]
    refine .bind (rebuilt_qualifyDataElems h addr addr false fs
      (by simpa [TVal.validTypes] using hv) (by simpa [TVal.flatIfaces] using hn)) fun r => .pure fun k hk => ?_
    obtain ⟨v', c⟩ := r
    refine ⟨⟨rfl, rfl⟩, ?_⟩
    rw [TVal.requalify, TVal.Preserved, TVal.array.injEq]
    exact hk
  | addr, .slice fs, hv, hn => by
    rw [qualifyData]
    refine .bind (rebuilt_qualifyDataElems h true true false fs
      (by simpa [TVal.validTypes] using hv) (by simpa [TVal.flatIfaces] using hn)) fun r => .pure fun k hk => ?_
    obtain ⟨v', c⟩ := r
    refine ⟨⟨rfl, rfl⟩, ?_⟩
    rw [TVal.requalify, TVal.Preserved, TVal.slice.injEq]
    exact hk
  | addr, .map es, hv, hn => by
    have hv : validTypesEntries es = true := by simpa [TVal.validTypes] using hv
    rw [qualifyData]
    refine .bind (.and (rebuilt_qualifyDataEntries h es hv (by simpa [TVal.flatIfaces] using hn))
      (post_qualifyDataEntries h es hv)) fun r => ?_
    obtain ⟨es', c⟩ := r
    refine .ite (fun hc => .pure fun k hk => ⟨⟨rfl, rfl⟩, ?_⟩) (fun hc => .pure fun k hk => ⟨⟨rfl, rfl⟩, ?_⟩)
    · obtain ⟨⟨hl, hr⟩, ⟨hch, -⟩⟩ := hk
      dsimp only at hl hr hch ⊢
      have hne : requalifyEntries h k.qualifierOf es ≠ es := fun he => by simp [hch.2 he] at hc
      rw [TVal.requalify, TVal.Preserved, TVal.map.injEq]
      constructor
      · intro he
        have hd := (foldl_setMapIndex_length es' [] rfl).2 (by
          rw [he, length_requalifyEntries, List.length_nil, Nat.zero_add, hl])
        rw [foldl_setMapIndex _ _ hd, List.nil_append] at he
        exact ⟨hr.1 he, fun _ => by rw [← he]; simpa using hd⟩
      · rintro ⟨h1, h2⟩
        have he := hr.2 h1
        rw [he, foldl_setMapIndex _ _ (by simpa using h2 hne), List.nil_append]
    · obtain ⟨-, ⟨hch, -⟩⟩ := hk
      have he : requalifyEntries h k.qualifierOf es = es := hch.1 (by simpa using hc)
      have : (TVal.map es).requalify h k.qualifierOf = .map es := by rw [TVal.requalify, he]
      simp [this, preserved_of_same _ _ _ this]
  | addr, .spec r, hv, hn => rebuilt_leaf h addr hv hn (by simp [TVal.flatPtrs]) (fun n => distinctKeys_requalify h n _ rfl rfl) (fun n => by simp [TVal.Preserved])
  | addr, .specCopy _ _, hv, hn => rebuilt_leaf h addr hv hn (by simp [TVal.flatPtrs]) (fun n => by rw [TVal.requalify]; rfl) (fun n => by simp [TVal.Preserved])
  | addr, .package _, hv, hn => rebuilt_leaf h addr hv hn (by simp [TVal.flatPtrs]) (fun n => by rw [TVal.requalify]; rfl) (fun n => by simp [TVal.Preserved])
  | addr, .symbol _, hv, hn => rebuilt_leaf h addr hv hn (by simp [TVal.flatPtrs]) (fun n => by rw [TVal.requalify]; rfl) (fun n => by simp [TVal.Preserved])
  | addr, .mref _, hv, hn => rebuilt_leaf h addr hv hn (by simp [TVal.flatPtrs]) (fun n => by rw [TVal.requalify]; rfl) (fun n => by simp [TVal.Preserved])
  | addr, .signature _, hv, hn => rebuilt_leaf h addr hv hn (by simp [TVal.flatPtrs]) (fun n => by rw [TVal.requalify]; rfl) (fun n => by simp [TVal.Preserved])
  | addr, .embed _, hv, hn => rebuilt_leaf h addr hv hn (by simp [TVal.flatPtrs]) (fun n => by rw [TVal.requalify]; rfl) (fun n => by simp [TVal.Preserved])
  | addr, .method _, hv, hn => rebuilt_leaf h addr hv hn (by simp [TVal.flatPtrs]) (fun n => by rw [TVal.requalify]; rfl) (fun n => by simp [TVal.Preserved])
  | addr, .scalar _, hv, hn => rebuilt_leaf h addr hv hn (by simp [TVal.flatPtrs]) (fun n => by rw [TVal.requalify] <;> simp [TVal.distinctKeys]) (fun n => by simp [TVal.Preserved])
  | addr, .imports, hv, hn => rebuilt_leaf h addr hv hn (by simp [TVal.flatPtrs]) (fun n => by rw [TVal.requalify] <;> simp [TVal.distinctKeys]) (fun n => by simp [TVal.Preserved])
  | addr, .typeName _, hv, hn => rebuilt_leaf h addr hv hn (by simp [TVal.flatPtrs]) (fun n => by rw [TVal.requalify] <;> simp [TVal.distinctKeys]) (fun n => by simp [TVal.Preserved])
  | addr, .reflectType _, hv, hn => rebuilt_leaf h addr hv hn (by simp [TVal.flatPtrs]) (fun n => by rw [TVal.requalify] <;> simp [TVal.distinctKeys]) (fun n => by simp [TVal.Preserved])
  | addr, .goType _, hv, hn => rebuilt_leaf h addr hv hn (by simp [TVal.flatPtrs]) (fun n => by rw [TVal.requalify] <;> simp [TVal.distinctKeys]) (fun n => by simp [TVal.Preserved])
  | addr, .goObject _, hv, hn => rebuilt_leaf h addr hv hn (by simp [TVal.flatPtrs]) (fun n => by rw [TVal.requalify] <;> simp [TVal.distinctKeys]) (fun n => by simp [TVal.Preserved])
  | addr, .goPackage _, hv, hn => rebuilt_leaf h addr hv hn (by simp [TVal.flatPtrs]) (fun n => by rw [TVal.requalify] <;> simp [TVal.distinctKeys]) (fun n => by simp [TVal.Preserved])
theorem rebuilt_qualifyDataFields (h : Heap) (addr : Bool) : ∀ (changed hidden : Bool) (fs : List (Bool × TVal)),
    validTypesFields fs = true → flatIfacesFields fs = true →
    Post (RebuiltFields h fs) (qualifyDataFields h addr changed hidden fs)
  | changed, hidden, [], _, _ => by
    rw [qualifyDataFields]
    exact .pure fun k => by simp [RebuiltFields, requalifyFields, PreservedFields]
  | changed, hidden, (e, v) :: fs, hv, hn => by
    rw [qualifyDataFields]
    simp only [validTypesFields, flatIfacesFields, Bool.and_eq_true] at hv hn
    refine .ite (fun _ => .panic) fun _ => ?_
    refine .bind (rebuilt_qualifyData h addr v hv.1 hn.1) fun r => ?_
    obtain ⟨v', c⟩ := r
    refine .ite (fun _ => .panic) fun _ => ?_
    refine (Post.bind (rebuilt_qualifyDataFields h addr (changed || c) (hidden || !e) fs hv.2 hn.2) fun r =>
      .pure (F := fun k b => _ → Rebuilt h v k (v', c) → RebuiltFields h ((e, v) :: fs) k b) fun k hk hk' => ?_)
    obtain ⟨fs', c'⟩ := r
    obtain ⟨-, b1⟩ := hk'
    simp only [RebuiltFields] at hk b1 ⊢
    rw [requalifyFields, PreservedFields, ← hk, ← b1]
    simp
theorem rebuilt_qualifyDataElems (h : Heap) (addr sl : Bool) : ∀ (changed : Bool) (vs : List TVal),
    validTypesElems vs = true → flatIfacesElems vs = true →
    Post (RebuiltElems h vs) (qualifyDataElems h addr sl changed vs)
  | changed, [], _, _ => by
    rw [qualifyDataElems]
    exact .pure fun k => by simp [RebuiltElems, requalifyElems, PreservedElems]
  | changed, v :: vs, hv, hn => by
    rw [qualifyDataElems]
    simp only [validTypesElems, flatIfacesElems, Bool.and_eq_true] at hv hn
    refine .bind (rebuilt_qualifyData h addr v hv.1 hn.1) fun r => ?_
    obtain ⟨v', c⟩ := r
    refine .ite (fun _ => .panic) fun _ => ?_
    refine (Post.bind (rebuilt_qualifyDataElems h addr sl (changed || c) vs hv.2 hn.2) fun r =>
      .pure (F := fun k b => _ → Rebuilt h v k (v', c) → RebuiltElems h (v :: vs) k b) fun k hk hk' => ?_)
    obtain ⟨fs', c'⟩ := r
    obtain ⟨-, b1⟩ := hk'
    simp only [RebuiltElems] at hk b1 ⊢
    rw [requalifyElems, PreservedElems, ← hk, ← b1]
    simp
theorem rebuilt_qualifyDataEntries (h : Heap) : ∀ (es : List (TVal × TVal)),
    validTypesEntries es = true → flatIfacesEntries es = true →
    Post (RebuiltEntries h es) (qualifyDataEntries h es)
  | [], _, _ => by
    rw [qualifyDataEntries]
    exact .pure fun k => by simp [RebuiltEntries, requalifyEntries, PreservedEntries]
  | (a, v) :: es, hv, hn => by
    rw [qualifyDataEntries]
    simp only [validTypesEntries, flatIfacesEntries, Bool.and_eq_true] at hv hn
    refine .bind (rebuilt_qualifyData h false a hv.1.1 hn.1.1) fun r => ?_
    obtain ⟨a', ca⟩ := r
    refine .bind (rebuilt_qualifyData h false v hv.1.2 hn.1.2) fun r => ?_
    obtain ⟨v', c⟩ := r
    refine .ite (fun _ => .panic) fun _ => ?_
    refine (Post.bind (rebuilt_qualifyDataEntries h es hv.2 hn.2) fun r =>
      .pure (F := fun k b => _ → Rebuilt h v k (v', c) → Rebuilt h a k (a', ca) → RebuiltEntries h ((a, v) :: es) k b)
        fun k hk hk' hk'' => ?_)
    obtain ⟨fs', c'⟩ := r
    obtain ⟨-, b1⟩ := hk'
    obtain ⟨-, d1⟩ := hk''
    obtain ⟨l1, a1⟩ := hk
    dsimp only at a1 l1 b1 d1
    refine ⟨by simp [l1], ?_⟩
    rw [requalifyEntries, PreservedEntries, ← a1, ← b1, ← d1]
    simp [and_assoc]
end

/-! ### Specs -/

/-- what stands for a spec after the names are replaced -/
def requalifyShown (h : Heap) (n : GoString → GoString) : SpecRef × Option GoString → SpecRef × Option GoString
  | (r, none) =>
    match r.package h with
    | some p => if n p.importPath = p.name then (r, none) else (r, some (n p.importPath))
    | none => (r, none)
  | (r, some _) => (r, some (n []))

theorem shownSpecs_converted (n : GoString → GoString) (acc : Accepts) (v : TVal) (o : Outcome TypeName)
    (hv : v.shownSpecs = []) : (requalifyConverted n acc v o).shownSpecs = [] := by
  cases o with
  | ok t => rw [requalifyConverted]; split <;> simp [TVal.shownSpecs, hv]
  | panic => simpa [requalifyConverted] using hv
  | hang => simpa [requalifyConverted] using hv

theorem shownSpecs_object (n : GoString → GoString) (acc : Accepts) (v : TVal) (o : Outcome SymbolOrMethodRef)
    (hv : v.shownSpecs = []) : (requalifyObject n acc v o).shownSpecs = [] := by
  cases o with
  | ok s => cases s <;> rw [requalifyObject] <;> split <;> simp [TVal.shownSpecs, hv]
  | panic => simpa [requalifyObject] using hv
  | hang => simpa [requalifyObject] using hv

mutual
theorem shownSpecs_requalify (H : Heap) (n : GoString → GoString) : ∀ v : TVal,
    (v.requalify H n).shownSpecs = v.shownSpecs.map (requalifyShown H n)
  | .iface acc v => by
    by_cases hc : v.isConv = true
    · cases v <;> simp only [TVal.isConv, Bool.false_eq_true] at hc
      case typeName | reflectType | goType => rw [TVal.requalify]; exact shownSpecs_converted _ _ _ _ rfl
      case goObject => rw [TVal.requalify]; exact shownSpecs_object _ _ _ _ rfl
      case goPackage => rw [TVal.requalify]; split <;> rfl
    · rw [requalify_iface _ _ _ (by simpa using hc), TVal.shownSpecs, TVal.shownSpecs]
      exact shownSpecs_requalify H n v
  | .spec r => by
    simp only [TVal.requalify, TVal.shownSpecs, List.map_cons, List.map_nil, requalifyShown]
    cases r.package H with
    | none => simp [TVal.shownSpecs]
    | some p => dsimp only; split <;> simp [TVal.shownSpecs]
  | .specCopy r m => by simp [TVal.requalify, TVal.shownSpecs, requalifyShown]
  | .ptr v => by
    rw [TVal.requalify, TVal.shownSpecs, TVal.shownSpecs]
    exact shownSpecs_requalify H n v
  | .struct fs => by
    rw [TVal.requalify, TVal.shownSpecs, TVal.shownSpecs]
    exact shownSpecs_requalifyFields H n fs
  | .array vs => by
    rw [TVal.requalify, TVal.shownSpecs, TVal.shownSpecs]
    exact shownSpecs_requalifyElems H n vs
  | .slice vs => by
    rw [TVal.requalify, TVal.shownSpecs, TVal.shownSpecs]
    exact shownSpecs_requalifyElems H n vs
  | .map es => by
    rw [TVal.requalify, TVal.shownSpecs, TVal.shownSpecs]
    exact shownSpecs_requalifyEntries H n es
  | .package _ | .symbol _ | .mref _ | .signature _ | .embed _ | .method _ => by rw [TVal.requalify]; rfl
  | .scalar _ | .imports | .typeName _ | .reflectType _ | .goType _ | .goObject _ | .goPackage _ => by
    rw [TVal.requalify] <;> simp [TVal.shownSpecs]
theorem shownSpecs_requalifyFields (H : Heap) (n : GoString → GoString) : ∀ fs,
    shownSpecsFields (requalifyFields H n fs) = (shownSpecsFields fs).map (requalifyShown H n)
  | [] => rfl
  | (e, v) :: fs => by
    simp only [requalifyFields, shownSpecsFields, List.map_append, shownSpecs_requalify H n v,
      shownSpecs_requalifyFields H n fs]
theorem shownSpecs_requalifyElems (H : Heap) (n : GoString → GoString) : ∀ vs,
    shownSpecsElems (requalifyElems H n vs) = (shownSpecsElems vs).map (requalifyShown H n)
  | [] => rfl
  | v :: vs => by
    simp only [requalifyElems, shownSpecsElems, List.map_append, shownSpecs_requalify H n v,
      shownSpecs_requalifyElems H n vs]
theorem shownSpecs_requalifyEntries (H : Heap) (n : GoString → GoString) : ∀ es,
    shownSpecsEntries (requalifyEntries H n es) = (shownSpecsEntries es).map (requalifyShown H n)
  | [] => rfl
  | (k, v) :: es => by
    simp only [requalifyEntries, shownSpecsEntries, List.map_append, shownSpecs_requalify H n k,
      shownSpecs_requalify H n v, shownSpecs_requalifyEntries H n es]
end

/-- The specs keep their packages exactly if none that has an import path needs another name. -/
theorem specsKept_requalify (H : Heap) (n : GoString → GoString) (v : TVal) :
    SpecsKept H n v (v.requalify H n) ↔ SpecsNamed H n v := by
  rw [SpecsKept, shownSpecs_requalify, List.map_map, List.map_inj_left, SpecsNamed]
  refine forall_congr' fun x => forall_congr' fun _ => ?_
  obtain ⟨r, _ | m⟩ := x
  · simp only [Function.comp_apply, requalifyShown, shownPackage]
    cases hp : r.package H with
    | none => simp [hp]
    | some p =>
      obtain ⟨path, name⟩ := p
      simp only [Option.map_some, Option.some.injEq, forall_eq', Package.requalify]
      by_cases hn : n path = name
      · simp [hn, hp]
      · simp only [hn, if_false, Option.some.injEq, Package.mk.injEq, and_true]
        rw [eq_comm]
        tauto
  · simp [requalifyShown, shownPackage, Package.requalify]

end Gopoet
