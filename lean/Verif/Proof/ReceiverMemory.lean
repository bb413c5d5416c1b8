import Verif.Spec.ReceiverMemory
import Verif.Props.Whole
/-! For C80: calls do not look at receivers. -/

namespace Gopoet

/-- Gives the functions of a heap these receivers. -/
def over (fin : Ptr → Option ReceiverSpec) (h : Heap) : Heap :=
  { h with funcs := fun p => (h.funcs p).map fun f => { f with receiver := fin p } }

variable {fin : Ptr → Option ReceiverSpec}

/-- With the receivers after the call, too. -/
def overOk (fin : Ptr → Option ReceiverSpec) (o : Outcome Heap) : Outcome Heap := o.bind fun h => .ok (over fin h)

/-- Likewise for constructors. -/
def overPair {α : Type} (fin : Ptr → Option ReceiverSpec) (o : Outcome (α × Heap)) : Outcome (α × Heap) :=
  o.bind fun r => .ok (r.1, over fin r.2)

theorem allocFields_over : ∀ (fs : List FieldType) (h : Heap) (q : Ptr),
    allocFields (over fin h) q fs = ((allocFields h q fs).1, over fin (allocFields h q fs).2)
  | [], _, _ => rfl
  | ⟨name, t, tag⟩ :: fs, h, q => by
    have key : ∀ h' : Heap, ((h.next :: (allocFields (over fin h') q fs).1, (allocFields (over fin h') q fs).2) : List Ptr × Heap) =
        (h.next :: (allocFields h' q fs).1, over fin (allocFields h' q fs).2) := by
      intro h'
      rw [allocFields_over fs h' q]
    simp only [allocFields]
    exact key { h with
      fields := upd h.fields h.next
        { name := name, tag := tag, type := match t with | .nil => .nil | t => .name t, parent := some q }
      next := h.next + 1 }

theorem allocEmbeds_over : ∀ (es : List Symbol) (h : Heap) (q : Ptr),
    allocEmbeds (over fin h) q es = ((allocEmbeds h q es).1, over fin (allocEmbeds h q es).2)
  | [], _, _ => rfl
  | e :: es, h, q => by
    simp only [allocEmbeds]
    exact congrArg (fun r : List IfaceElem × Heap => (.embed h.next :: r.1, r.2)) (allocEmbeds_over es
      { h with embeds := upd h.embeds h.next { type := e, parent := some q }, next := h.next + 1 } q)

theorem allocMethods_over : ∀ (ms : List MethodType) (h : Heap) (q : Ptr),
    allocMethods (over fin h) q ms = ((allocMethods h q ms).1, over fin (allocMethods h q ms).2)
  | [], _, _ => rfl
  | m :: ms, h, q => by
    simp only [allocMethods]
    exact congrArg (fun r : List IfaceElem × Heap => (.method h.next :: r.1, r.2)) (allocMethods_over ms
      { h with methods := upd h.methods h.next { name := m.name, signature := m.signature, parent := some q }, next := h.next + 1 } q)

theorem newTypeSpec_over (h : Heap) (n : GoString) (t : TypeRef) :
    newTypeSpec (over fin h) n t = overPair fin (newTypeSpec h n t) := by
  cases t with
  | nil => rfl
  | spec p =>
    rw [newTypeSpec, newTypeSpec]
    show (deref h.types p).bind _ = overPair fin ((deref h.types p).bind _)
    cases deref h.types p with
    | ok t =>
      show (t.toTypeName h).bind _ = overPair fin ((t.toTypeName h).bind _)
      cases t.toTypeName h <;> rfl
    | _ => rfl
  | name t =>
    cases t with
    | struct fs =>
      simp only [newTypeSpec]
      rw [show ({ over fin h with next := (over fin h).next + 1 } : Heap) = over fin { h with next := h.next + 1 } from rfl,
        allocFields_over]
      rfl
    | interface ms es =>
      simp only [newTypeSpec]
      rw [show ({ over fin h with next := (over fin h).next + 1 } : Heap) = over fin { h with next := h.next + 1 } from rfl,
        allocEmbeds_over]
      simp only
      rw [allocMethods_over]
      rfl
    | _ => rfl

theorem collectFields_over (q : Ptr) : ∀ (ps : List Ptr) (h : Heap),
    collectFields q (over fin h) ps = overPair fin (collectFields q h ps)
  | [], _ => rfl
  | p :: ps, h => by
    rw [collectFields, collectFields]
    show (deref h.fields p).bind _ = overPair fin ((deref h.fields p).bind _)
    cases deref h.fields p with
    | ok f =>
      have ih := collectFields_over q ps { h with fields := upd h.fields p { f with parent := some q } }
      have key : ∀ (o : Outcome TypeName),
          (o.bind fun t => (collectFields q (over fin { h with fields := upd h.fields p { f with parent := some q } }) ps).bind
            fun r => .ok (⟨f.name, t, f.tag⟩ :: r.1, r.2)) =
          overPair fin (o.bind fun t => (collectFields q { h with fields := upd h.fields p { f with parent := some q } } ps).bind
            fun r => .ok (⟨f.name, t, f.tag⟩ :: r.1, r.2)) := by
        intro o
        cases o with
        | ok t =>
          rw [ih]
          show (overPair fin _).bind _ = overPair fin ((collectFields q _ ps).bind _)
          cases collectFields q { h with fields := upd h.fields p { f with parent := some q } } ps <;> rfl
        | _ => rfl
      exact key _
    | _ => rfl

theorem collectElems_over (q : Ptr) : ∀ (es : List IfaceElem) (h : Heap),
    collectElems q (over fin h) es = (collectElems q h es).bind fun r => .ok (r.1, r.2.1, over fin r.2.2)
  | [], _ => rfl
  | .embed p :: es, h => by
    rw [collectElems, collectElems]
    show (deref h.embeds p).bind _ = ((deref h.embeds p).bind _).bind _
    cases deref h.embeds p with
    | ok e =>
      have ih := collectElems_over q es { h with embeds := upd h.embeds p { e with parent := some q } }
      show (collectElems q (over fin { h with embeds := upd h.embeds p { e with parent := some q } }) es).bind _ =
        ((collectElems q { h with embeds := upd h.embeds p { e with parent := some q } } es).bind _).bind _
      rw [ih]
      cases collectElems q { h with embeds := upd h.embeds p { e with parent := some q } } es <;> rfl
    | _ => rfl
  | .method p :: es, h => by
    rw [collectElems, collectElems]
    show (deref h.methods p).bind _ = ((deref h.methods p).bind _).bind _
    cases deref h.methods p with
    | ok e =>
      have ih := collectElems_over q es { h with methods := upd h.methods p { e with parent := some q } }
      show (collectElems q (over fin { h with methods := upd h.methods p { e with parent := some q } }) es).bind _ =
        ((collectElems q { h with methods := upd h.methods p { e with parent := some q } } es).bind _).bind _
      rw [ih]
      cases collectElems q { h with methods := upd h.methods p { e with parent := some q } } es <;> rfl
    | _ => rfl

theorem codeCall_over (c : CodeCall) (cb : CodeBlock) (h : Heap) : c.exec cb (over fin h) = overPair fin (c.exec cb h) := by
  cases c with
  | addCode b =>
    show (deref h.blocks b).bind _ = overPair fin ((deref h.blocks b).bind _)
    cases deref h.blocks b <;> rfl
  | _ => rfl

theorem newBlock_over (h : Heap) (c : Option CodeCall) : newBlock (over fin h) c = overPair fin (newBlock h c) := by
  cases c with
  | none => rfl
  | some c =>
    have := codeCall_over (fin := fin) c [] { h with blocks := upd h.blocks h.next [], next := h.next + 1 }
    show (c.exec [] (over fin { h with blocks := upd h.blocks h.next [], next := h.next + 1 })).bind _ =
      overPair fin ((c.exec [] { h with blocks := upd h.blocks h.next [], next := h.next + 1 }).bind _)
    rw [this]
    cases c.exec [] { h with blocks := upd h.blocks h.next [], next := h.next + 1 } <;> rfl

/-- The table of functions with the receivers. -/
theorem over_upd (h : Heap) (p : Ptr) (f : FuncSpec) :
    over fin { h with funcs := upd h.funcs p f } = { over fin h with funcs := upd (over fin h).funcs p { f with receiver := fin p } } := by
  simp only [over, Heap.mk.injEq, true_and, and_true]
  funext q
  simp only [upd]
  split
  · rename_i e; rw [e]; rfl
  · rfl

theorem modAt_over (h : Heap) (p : Ptr) (g : FuncSpec → FuncSpec) (hg : ∀ f r, g { f with receiver := r } = { g f with receiver := r }) :
    ((modAt (over fin h).funcs p g).bind fun m => .ok { over fin h with funcs := m }) =
      overOk fin ((modAt h.funcs p g).bind fun m => .ok { h with funcs := m }) := by
  have e : (over fin h).funcs p = (h.funcs p).map fun f => { f with receiver := fin p } := rfl
  rw [modAt, modAt, e]
  cases h.funcs p with
  | none => rfl
  | some f =>
    show Outcome.ok { over fin h with funcs := upd (over fin h).funcs p (g { f with receiver := fin p }) } = .ok (over fin _)
    rw [over_upd, hg]

theorem setParent_over (h : Heap) (f : Ptr) (e : FileElem) : e.setParent f (over fin h) = overOk fin (e.setParent f h) := by
  cases e with
  | values p =>
    show (deref h.valueDecls p).bind _ = overOk fin ((deref h.valueDecls p).bind _)
    cases deref h.valueDecls p with
    | ok d =>
      show (setParents _ h.values d.specs).bind _ = overOk fin ((setParents _ h.values d.specs).bind _)
      cases setParents (fun s : ValueSpec => { s with parent := some f }) h.values d.specs <;> rfl
    | _ => rfl
  | types p =>
    show (deref h.typeDecls p).bind _ = overOk fin ((deref h.typeDecls p).bind _)
    cases deref h.typeDecls p with
    | ok d =>
      show (setParents _ h.types d.types).bind _ = overOk fin ((setParents _ h.types d.types).bind _)
      cases setParents (fun s : TypeSpec => { s with parent := some f }) h.types d.types <;> rfl
    | _ => rfl
  | func p =>
    have key := modAt_over (fin := fin) h p (fun s => { s with parent := some f }) (fun _ _ => rfl)
    have e : ∀ m : Ptr → Option FuncSpec, setParents (fun s : FuncSpec => { s with parent := some f }) m [p] =
        modAt m p fun s => { s with parent := some f } := by
      intro m
      rw [setParents, modAt]
      cases m p <;> rfl
    rw [FileElem.setParent, FileElem.setParent, e, e]
    exact key

theorem addElement_over (h : Heap) (f : Ptr) (e : FileElem) : addElement (over fin h) f e = overOk fin (addElement h f e) := by
  rw [addElement, addElement, setParent_over]
  cases e.setParent f h with
  | ok h' =>
    show (deref h'.files f).bind _ = overOk fin ((deref h'.files f).bind _)
    cases deref h'.files f <;> rfl
  | _ => rfl

theorem deref_bind_over {α : Type} (m : Ptr → Option α) (p : Ptr) (g : α → Heap) (g' : α → Heap) (hg : ∀ a, g' a = over fin (g a)) :
    ((deref m p).bind fun a => .ok (g' a)) = overOk fin ((deref m p).bind fun a => .ok (g a)) := by
  rw [show g' = fun a => over fin (g a) from funext hg]
  cases deref m p <;> rfl

/-- Calls do the same whatever the receivers are. -/
theorem exec_over (h : Heap) (c : BuildCall) (hc : ∀ r n, c ≠ .newFunc r n) : c.exec (over fin h) = overOk fin (c.exec h) := by
  have mod : ∀ {α : Type} (m : Ptr → Option α) (p : Ptr) (f : α → α) (g : (Ptr → Option α) → Heap),
      ((modAt m p f).bind fun m => .ok (over fin (g m))) = overOk fin ((modAt m p f).bind fun m => .ok (g m)) := by
    intro α m p f g
    cases modAt m p f <;> rfl
  cases c with
  | newFunc r n => exact absurd rfl (hc r n)
  | newTypeSpec n t =>
    show built _ = overOk fin (built _)
    rw [newTypeSpec_over]
    cases newTypeSpec h n t <;> rfl
  | newTypeAlias n t =>
    show built _ = overOk fin (built _)
    rw [newTypeAlias, newTypeAlias, newTypeSpec_over]
    cases newTypeSpec h n t with
    | ok r =>
      show built ((deref r.2.types r.1).bind _) = overOk fin (built ((deref r.2.types r.1).bind _))
      cases deref r.2.types r.1 <;> rfl
    | _ => rfl
  | newStructTypeSpec n fs =>
    show built _ = overOk fin (built _)
    rw [newStructTypeSpec, newStructTypeSpec,
      show ({ over fin h with next := (over fin h).next + 1 } : Heap) = over fin { h with next := h.next + 1 } from rfl]
    show built ((collectFields h.next _ fs).bind _) = overOk fin (built ((collectFields h.next _ fs).bind _))
    rw [collectFields_over]
    cases collectFields h.next { h with next := h.next + 1 } fs <;> rfl
  | newInterfaceTypeSpec n es =>
    show built _ = overOk fin (built _)
    rw [newInterfaceTypeSpec, newInterfaceTypeSpec,
      show ({ over fin h with next := (over fin h).next + 1 } : Heap) = over fin { h with next := h.next + 1 } from rfl]
    show built ((collectElems h.next _ es).bind _) = overOk fin (built ((collectElems h.next _ es).bind _))
    rw [collectElems_over]
    cases collectElems h.next { h with next := h.next + 1 } es <;> rfl
  | newBlock b =>
    show built _ = overOk fin (built _)
    rw [newBlock_over]
    cases newBlock h b <;> rfl
  | newFile a b c =>
    show built _ = overOk fin (built _)
    rw [allocFile, allocFile]
    cases newGoFile a b c <;> rfl
  | setComment o s =>
    cases o with
    | func p => exact modAt_over h p (fun f => { f with comment := s }) fun _ _ => rfl
    | value p => exact mod h.values p _ fun m => { h with values := m }
    | valueDecl p => exact mod h.valueDecls p _ fun m => { h with valueDecls := m }
    | type p => exact mod h.types p _ fun m => { h with types := m }
    | typeDecl p => exact mod h.typeDecls p _ fun m => { h with typeDecls := m }
    | field p => exact mod h.fields p _ fun m => { h with fields := m }
    | embed p => exact mod h.embeds p _ fun m => { h with embeds := m }
    | method p => exact mod h.methods p _ fun m => { h with methods := m }
  | setType p t => exact mod h.values p _ fun m => { h with values := m }
  | setInitializer p b => exact mod h.values p _ fun m => { h with values := m }
  | initWith p a b =>
    show valueInitialize _ _ _ _ = overOk fin (valueInitialize _ _ _ _)
    rw [valueInitialize, valueInitialize, newBlock_over]
    cases newBlock h (some (.printf a b)) with
    | ok r => exact mod r.2.values p _ fun m => { r.2 with values := m }
    | _ => rfl
  | setTag p t => exact mod h.fields p _ fun m => { h with fields := m }
  | methodSig p c => exact mod h.methods p _ fun m => { h with methods := m }
  | funcSig p c => exact modAt_over h p (fun f => { f with signature := c.exec f.signature }) fun _ _ => rfl
  | funcCode p c =>
    show funcCodeCall _ _ _ = overOk fin (funcCodeCall _ _ _)
    have e : (over fin h).funcs p = (h.funcs p).map fun f => { f with receiver := fin p } := rfl
    rw [funcCodeCall, funcCodeCall, deref, deref, e]
    cases h.funcs p with
    | none => rfl
    | some f =>
      show (c.exec f.code (over fin h)).bind _ = overOk fin ((c.exec f.code h).bind _)
      rw [codeCall_over]
      cases c.exec f.code h with
      | ok r =>
        show Outcome.ok { over fin r.2 with funcs := upd (over fin r.2).funcs p { f with receiver := fin p, code := r.1 } } = .ok (over fin _)
        rw [over_upd]
      | _ => rfl
  | blockCode p c =>
    show (deref h.blocks p).bind _ = overOk fin ((deref h.blocks p).bind _)
    cases deref h.blocks p with
    | ok cb =>
      show (c.exec cb (over fin h)).bind _ = overOk fin ((c.exec cb h).bind _)
      rw [codeCall_over]
      cases c.exec cb h <;> rfl
    | _ => rfl
  | fileField p k s => exact mod h.files p _ fun m => { h with files := m }
  | addElement f e => exact addElement_over h f e
  | addValue f kind s => exact addElement_over { h with valueDecls := upd h.valueDecls h.next { kind, specs := [s] }, next := h.next + 1 } f _
  | addType f t => exact addElement_over { h with typeDecls := upd h.typeDecls h.next { types := [t] }, next := h.next + 1 } f _
  | declAddValue d s => exact deref_bind_over h.valueDecls d (fun D => { h with valueDecls := upd h.valueDecls d { D with specs := D.specs ++ [s] } }) _ fun _ => rfl
  | declAddType d t => exact deref_bind_over h.typeDecls d (fun D => { h with typeDecls := upd h.typeDecls d { D with types := D.types ++ [t] } }) _ fun _ => rfl
  | _ => rfl

end Gopoet
