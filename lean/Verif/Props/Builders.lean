import Verif.Proof.BuilderBlocks
import Verif.Proof.BuilderRendered
import Verif.Props.Sharing
/-!
# Properties C46 to C50: constructors and chained methods
-/

namespace Gopoet
open Imports

/-! ## C46 -/

theorem pathBase_slashes (p : GoString) (n : Nat) (hp : ∃ x ∈ p, x ≠ slash) :
    pathBase (p ++ List.replicate n slash) = pathBase p := by
  obtain ⟨x, hx, hne⟩ := hp
  have h1 : p ≠ [] := by rintro rfl; cases hx
  have h2 : p ++ List.replicate n slash ≠ [] := by simp [h1]
  have h3 : ∀ n (l : GoString), (List.replicate n slash ++ l).dropWhile (· == slash) = l.dropWhile (· == slash) := by
    intro n l
    induction n with
    | zero => rfl
    | succ n ih => simp [List.replicate_succ, ih]
  unfold pathBase
  rw [if_neg h1, if_neg h2]
  simp only [List.reverse_append, List.reverse_replicate, h3]

/-- C46: `NewPackage` keeps the path, and the name is the last element of the path. Slashes at the end
do not count. -/
theorem C46_newPackage (dir e : GoString) (n : Nat) (he : e ≠ []) (hs : slash ∉ e) :
    newPackage (e ++ List.replicate n slash) = ⟨e ++ List.replicate n slash, e⟩ ∧
    newPackage (dir ++ slash :: e ++ List.replicate n slash)
      = ⟨dir ++ slash :: e ++ List.replicate n slash, e⟩ := by
  obtain ⟨h1, h2⟩ := C04_base_is_last_element dir e he hs
  obtain ⟨x, hx⟩ := List.exists_mem_of_ne_nil e he
  have hne : x ≠ slash := by rintro rfl; exact hs hx
  constructor
  · unfold newPackage
    rw [pathBase_slashes e n ⟨x, hx, hne⟩, h1]
  · unfold newPackage
    rw [pathBase_slashes _ n ⟨x, by simp [hx], hne⟩, h2]

/-- C46: the name of a path without elements is `.` or `/`. -/
theorem C46_newPackage_no_element (n : Nat) :
    newPackage [] = ⟨[], b! "."⟩ ∧
    newPackage (List.replicate (n + 1) slash) = ⟨List.replicate (n + 1) slash, b! "/"⟩ := by
  refine ⟨rfl, ?_⟩
  have h : ∀ n, (List.replicate n slash).dropWhile (· == slash) = [] := by
    intro n
    induction n with
    | zero => rfl
    | succ n ih => simp [List.replicate_succ, ih]
  unfold newPackage pathBase
  rw [if_neg (by simp [List.replicate_succ])]
  simp only [List.reverse_replicate, h]
  rfl

/-- C46: a symbol made by `NewSymbol` is written as last element, dot and name. -/
theorem C46_newSymbol (tbl : Nat → Bool) (dir e name : GoString) (n : Nat) (he : e ≠ []) (hs : slash ∉ e) {path : GoString}
    (hp : path = e ++ List.replicate n slash ∨ path = dir ++ slash :: e ++ List.replicate n slash) :
    (newSymbol path name).package.importPath = path ∧ (newSymbol path name).name = name ∧
    (newSymbol path name).string = e ++ b! "." ++ name ∧
    (namedType (newSymbol path name)).string tbl = .ok (e ++ b! "." ++ name) := by
  have h : newPackage path = ⟨path, e⟩ := by
    rcases hp with rfl | rfl
    · exact (C46_newPackage dir e n he hs).1
    · exact (C46_newPackage dir e n he hs).2
  have h1 : (newSymbol path name).string = e ++ b! "." ++ name := by
    unfold newSymbol
    rw [h]
    simp [Package.symbol, Symbol.string, he]
  refine ⟨by rw [newSymbol, h]; rfl, by rw [newSymbol]; rfl, h1, ?_⟩
  rw [← h1]
  rfl

example : newPackage (b! "github.com/x/yaml//") = ⟨b! "github.com/x/yaml//", b! "yaml"⟩ := by decide
example : (newSymbol (b! "net/http") (b! "Request")).string = b! "http.Request" := by decide
/-- The name need not be an identifier. -/
example : (newPackage (b! "gopkg.in/yaml.v2")).name = b! "yaml.v2" := by decide

/-! ## C47 -/

/-- C47: the signature of a function consists of the arguments and results that were added, in the
order of the calls; the last `SetVariadic` decides. Calls for other objects have no influence. -/
theorem C47_func {cs : List BuildCall} {h h' : Heap} (hf : h.Fresh) (hb : build cs h = .ok h')
    {p : Ptr} {f : FuncSpec} (hp : h.funcs p = some f) :
    ∃ f', h'.funcs p = some f' ∧
      f'.signature.args = f.signature.args ++ (cs.filterMap (·.sig? (.func p))).filterMap SigCall.arg? ∧
      f'.signature.results
        = f.signature.results ++ (cs.filterMap (·.sig? (.func p))).filterMap SigCall.result? ∧
      f'.signature.isVariadic
        = lastOr f.signature.isVariadic ((cs.filterMap (·.sig? (.func p))).filterMap SigCall.variadic?) := by
  obtain ⟨par, l, h1, _⟩ := (build_built hf hb).funcs p f hp
  exact ⟨_, h1, rfl, rfl, rfl⟩

/-- C47: so does that of an interface method. -/
theorem C47_method {cs : List BuildCall} {h h' : Heap} (hf : h.Fresh) (hb : build cs h = .ok h')
    {p : Ptr} {m : InterfaceMethod} (hp : h.methods p = some m) :
    ∃ m', h'.methods p = some m' ∧
      m'.signature.args = m.signature.args ++ (cs.filterMap (·.sig? (.method p))).filterMap SigCall.arg? ∧
      m'.signature.results
        = m.signature.results ++ (cs.filterMap (·.sig? (.method p))).filterMap SigCall.result? ∧
      m'.signature.isVariadic
        = lastOr m.signature.isVariadic ((cs.filterMap (·.sig? (.method p))).filterMap SigCall.variadic?) := by
  obtain ⟨par, h1⟩ := (build_built hf hb).methods p m hp
  exact ⟨_, h1, rfl, rfl, rfl⟩

/-- C47: new functions, methods and interface methods have no arguments and results. -/
theorem C47_new (h : Heap) (r : Option ReceiverSpec) (name : GoString) :
    (∃ h', (BuildCall.newFunc r name).exec h = .ok h' ∧
      h'.funcs h.next = some { name, receiver := r, signature := ⟨[], [], false⟩ }) ∧
    ∃ h', (BuildCall.newInterfaceMethod name).exec h = .ok h' ∧
      h'.methods h.next = some { name, signature := ⟨[], [], false⟩ } :=
  ⟨⟨_, rfl, upd_same ..⟩, ⟨_, rfl, upd_same ..⟩⟩

/-- C47: the same for signatures that are built directly. -/
theorem C47_signature (s : Signature) (cs : List SigCall) :
    let s' := cs.foldl SigCall.exec s
    s'.args = s.args ++ cs.filterMap SigCall.arg? ∧ s'.results = s.results ++ cs.filterMap SigCall.result? ∧
      s'.isVariadic = lastOr s.isVariadic (cs.filterMap SigCall.variadic?) := by
  have h : ∀ (cs : List SigCall) (s : Signature), cs.foldl SigCall.exec s = s.after cs := by
    intro cs
    induction cs with
    | nil => intro s; exact s.after_nil.symm
    | cons c cs ih => intro s; rw [List.foldl_cons, ih, Signature.after_cons]
  simp only [h]
  exact ⟨rfl, rfl, rfl⟩

/-- Two functions that are built at the same time. -/
def exSigs : List BuildCall :=
  [.newFunc none (b! "F"), .newInterfaceMethod (b! "M"), .newFunc none (b! "G"),
   .funcSig 0 (.addArg (b! "a") (.basic .int)), .funcSig 2 (.addArg (b! "z") (.basic .bool)),
   .methodSig 1 (.addResult [] (.basic .string)), .funcSig 0 (.setVariadic true),
   .funcSig 0 (.addArg (b! "b") (.slice (.basic .int))), .funcSig 0 (.addResult [] (.basic .bool))]
example : ((build exSigs {}).bind fun h => (deref h.funcs 0).bind fun f => f.text exEnv h)
    = .ok (b! "func F(a int, b ...int) bool {\n}\n") := by decide
example : ((build exSigs {}).bind fun h => (deref h.funcs 2).bind fun f => f.text exEnv h)
    = .ok (b! "func G(z bool) {\n}\n") := by decide

/-! ## C48 -/

/-- C48: a file keeps its elements, and has those that were added to it, in the order of the calls,
and no others; `NumElements` and `ElementAt` show that. -/
theorem C48_elements {cs : List BuildCall} {h h' : Heap} (hf : h.Fresh) (hb : build cs h = .ok h')
    {p : Ptr} {f : GoFile} (hp : h.files p = some f) :
    ∃ f' es, h'.files p = some f' ∧
      List.Forall₂ Adds ((steps cs h).filter fun s => s.1.addsTo p) es ∧
      f'.numElements = f.numElements + es.length ∧
      (∀ k, k < f.numElements → f'.elementAt k = f.elementAt k) ∧
      (∀ k, (hk : k < es.length) → f'.elementAt (f.numElements + k) = .ok es[k]) ∧
      ∀ k, f'.numElements ≤ k → f'.elementAt k = .panic := by
  obtain ⟨f', es, h1, _, _, _, _, h6, h7⟩ := (build_built hf hb).files p f hp
  refine ⟨f', es, h1, h7, ?_, ?_, ?_, ?_⟩
  · simp [GoFile.numElements, h6]
  · intro k hk
    unfold GoFile.elementAt
    rw [h6, List.getElem?_append_left hk]
  · intro k hk
    unfold GoFile.elementAt
    rw [h6, List.getElem?_append_right (by simp [GoFile.numElements])]
    simp [GoFile.numElements, hk]
  · intro k hk
    unfold GoFile.elementAt
    rw [List.getElem?_eq_none hk]

/-- C48: a declaration keeps its specs, and has those that were added to it, in the order of the
calls. -/
theorem C48_specs {cs : List BuildCall} {h h' : Heap} (hf : h.Fresh) (hb : build cs h = .ok h') {p : Ptr} :
    (∀ d, h.valueDecls p = some d → ∃ d', h'.valueDecls p = some d' ∧ d'.kind = d.kind ∧
      d'.specs = d.specs ++ cs.filterMap (·.spec? p)) ∧
    ∀ d, h.typeDecls p = some d → ∃ d', h'.typeDecls p = some d' ∧
      d'.types = d.types ++ cs.filterMap (·.typeSpec? p) :=
  ⟨fun d hd => ⟨_, (build_built hf hb).valueDecls p d hd, rfl, rfl⟩,
   fun d hd => ⟨_, (build_built hf hb).typeDecls p d hd, rfl⟩⟩

/-- C48: a new declaration has the specs given, a new file has no elements and no imports. -/
theorem C48_new (h : Heap) (kind : ValueKind) (specs : List Ptr) :
    (∃ h', (BuildCall.newValueDecl kind specs).exec h = .ok h' ∧
      h'.valueDecls h.next = some { kind, specs }) ∧
    (∃ h', (BuildCall.newTypeDecl specs).exec h = .ok h' ∧ h'.typeDecls h.next = some { types := specs }) ∧
    ∀ file path pkg h', (BuildCall.newFile file path pkg).exec h = .ok h' →
      ∃ f, h'.files h.next = some f ∧ f.elements = [] ∧ f.imports = newImportsFor path ∧
        f.packageName = pkg ∧ f.fileComment = [] ∧ f.packageComment = [] ∧ f.canonicalImportPath = [] := by
  refine ⟨⟨_, rfl, upd_same ..⟩, ⟨_, rfl, upd_same ..⟩, ?_⟩
  intro file path pkg h' hx
  obtain ⟨⟨q, g⟩, h1, h2⟩ := bind_eq_ok hx
  cases h2
  obtain ⟨f, h3, h4⟩ := bind_eq_ok h1
  cases h4
  refine ⟨f, upd_same .., ?_⟩
  unfold newGoFile at h3
  split at h3
  · cases h3
  · split at h3
    · cases h3
    · cases h3
      exact ⟨rfl, rfl, rfl, rfl, rfl, rfl⟩

/-- A file to which elements are added in several ways. -/
def exElems : List BuildCall :=
  [.newFile (b! "a.go") (b! "x/p") (b! "p"), .newValue .const [b! "A"], .newValue .const [b! "B"],
   .newTypeSpec (b! "T") (.name (.basic .int)), .newFunc none (b! "F"), .newTypeSpec (b! "U") (.name (.basic .bool)),
   .addElement 0 (.func 4), .addValue 0 .const 1, .addType 0 3, .declAddValue 6 2, .declAddType 7 5]
example : ((build exElems {}).bind fun h => (deref h.files 0).bind fun f => .ok f.elements)
    = .ok [.func 4, .values 6, .types 7] := by decide
example : ((build exElems {}).bind fun h => (deref h.valueDecls 6).bind fun d => .ok (d.kind, d.specs))
    = .ok (.const, [1, 2]) := by decide
example : ((build exElems {}).bind fun h => (deref h.typeDecls 7).bind fun d => .ok d.types)
    = .ok [3, 5] := by decide

/-! ## C49 -/

/-- C49: a const or var has the comment, type and initializer that were set last; its names and kind
stay. Calls for other objects have no influence. -/
theorem C49_value {cs : List BuildCall} {h h' : Heap} (hf : h.Fresh) (hb : build cs h = .ok h')
    {p : Ptr} {v : ValueSpec} (hp : h.values p = some v) :
    ∃ par, h'.values p = some { v with
      comment := lastOr v.comment (cs.filterMap (·.comment? (.value p)))
      type := lastOr v.type (cs.filterMap (·.type? p))
      init := lastOr v.init ((steps cs h).filterMap (init? p))
      parent := par } :=
  (build_built hf hb).values p v hp

/-- C49: a declaration has the comment that was set last. -/
theorem C49_decl {cs : List BuildCall} {h h' : Heap} (hf : h.Fresh) (hb : build cs h = .ok h') {p : Ptr} :
    (∀ d, h.valueDecls p = some d → ∃ d', h'.valueDecls p = some d' ∧
      d'.comment = lastOr d.comment (cs.filterMap (·.comment? (.valueDecl p)))) ∧
    ∀ d, h.typeDecls p = some d → ∃ d', h'.typeDecls p = some d' ∧
      d'.comment = lastOr d.comment (cs.filterMap (·.comment? (.typeDecl p))) :=
  ⟨fun d hd => ⟨_, (build_built hf hb).valueDecls p d hd, rfl⟩,
   fun d hd => ⟨_, (build_built hf hb).typeDecls p d hd, rfl⟩⟩

/-- C49: a type has the comment that was set last; its name, its underlying type and its body stay. -/
theorem C49_type {cs : List BuildCall} {h h' : Heap} (hf : h.Fresh) (hb : build cs h = .ok h')
    {p : Ptr} {t : TypeSpec} (hp : h.types p = some t) :
    ∃ par, h'.types p = some { t with
      comment := lastOr t.comment (cs.filterMap (·.comment? (.type p)))
      parent := par } :=
  (build_built hf hb).types p t hp

/-- C49: a field has the comment and the tag that were set last; its name and type stay. -/
theorem C49_field {cs : List BuildCall} {h h' : Heap} (hf : h.Fresh) (hb : build cs h = .ok h')
    {p : Ptr} {f : FieldSpec} (hp : h.fields p = some f) :
    ∃ par, h'.fields p = some { f with
      comment := lastOr f.comment (cs.filterMap (·.comment? (.field p)))
      tag := lastOr f.tag (cs.filterMap (·.tag? p))
      parent := par } :=
  (build_built hf hb).fields p f hp

/-- C49: an embedded interface has the comment that was set last. -/
theorem C49_embed {cs : List BuildCall} {h h' : Heap} (hf : h.Fresh) (hb : build cs h = .ok h')
    {p : Ptr} {e : InterfaceEmbed} (hp : h.embeds p = some e) :
    ∃ par, h'.embeds p = some { e with
      comment := lastOr e.comment (cs.filterMap (·.comment? (.embed p)))
      parent := par } :=
  (build_built hf hb).embeds p e hp

/-- C49: an interface method and a function have the comment that was set last; the name and the
receiver stay. -/
theorem C49_func {cs : List BuildCall} {h h' : Heap} (hf : h.Fresh) (hb : build cs h = .ok h') {p : Ptr} :
    (∀ m, h.methods p = some m → ∃ m', h'.methods p = some m' ∧ m'.name = m.name ∧
      m'.comment = lastOr m.comment (cs.filterMap (·.comment? (.method p)))) ∧
    ∀ f, h.funcs p = some f → ∃ f', h'.funcs p = some f' ∧ f'.name = f.name ∧ f'.receiver = f.receiver ∧
      f'.comment = lastOr f.comment (cs.filterMap (·.comment? (.func p))) := by
  constructor
  · intro m hm
    obtain ⟨par, h1⟩ := (build_built hf hb).methods p m hm
    exact ⟨_, h1, rfl, rfl⟩
  · intro f hm
    obtain ⟨par, l, h1, _⟩ := (build_built hf hb).funcs p f hm
    exact ⟨_, h1, rfl, rfl, rfl⟩

/-- C49: a file has the comments and the canonical path that were assigned last; its name, its package
and its imports stay. -/
theorem C49_file {cs : List BuildCall} {h h' : Heap} (hf : h.Fresh) (hb : build cs h = .ok h')
    {p : Ptr} {f : GoFile} (hp : h.files p = some f) :
    ∃ f', h'.files p = some f' ∧ f'.imports = f.imports ∧ f'.name = f.name ∧ f'.packageName = f.packageName ∧
      ∀ k, f'.get k = lastOr (f.get k) (cs.filterMap (·.fileField? p k)) := by
  obtain ⟨f', es, h1, h2, h3, h4, h5, _⟩ := (build_built hf hb).files p f hp
  exact ⟨f', h1, h2, h3, h4, h5⟩

/-- C49: new objects have what was given to the constructor, and no comment, type, initializer or tag. -/
theorem C49_new (h : Heap) (kind : ValueKind) (names : List GoString) (name : GoString) (t : TypeRef)
    (s : Symbol) :
    (∃ h', (BuildCall.newValue kind names).exec h = .ok h' ∧
      h'.values h.next = some ⟨kind, [], names, .nil, none, none⟩) ∧
    (∃ h', (BuildCall.newField name t).exec h = .ok h' ∧
      h'.fields h.next = some ⟨[], name, [], t, none⟩) ∧
    ∃ h', (BuildCall.newInterfaceEmbed s).exec h = .ok h' ∧ h'.embeds h.next = some ⟨[], s, none⟩ :=
  ⟨⟨_, rfl, upd_same ..⟩, ⟨_, rfl, upd_same ..⟩, ⟨_, rfl, upd_same ..⟩⟩

theorem codeText_line {env : Env} {H : Heap} {format : GoString} {q : Ptr} {args : List Arg}
    (hq : H.args q = some args) : codeText env H [.line format q] = .ok (fprintf env H format args) := by
  show (CodeElem.text env H (.line format q)).bind _ = _
  simp only [CodeElem.text, deref, hq]
  show Outcome.ok (_ ++ []) = _
  rw [List.append_nil]

/-- C49: `Initialize` gives the const or var a block of its own, with what `fmt` makes of the
arguments. -/
theorem C49_initialize {h h' : Heap} {p : Ptr} {format : GoString} {args : List Arg} (hf : h.Fresh)
    (hx : (BuildCall.initWith p format args).exec h = .ok h') :
    ∃ v v' b code, h.values p = some v ∧ h'.values p = some v' ∧ v'.init = some b ∧ h.blocks b = none ∧
      h'.blocks b = some code ∧ ∀ env, codeText env h' code = .ok (fprintf env h' format args) := by
  obtain ⟨⟨b, g⟩, h1, h2⟩ := bind_eq_ok hx
  obtain ⟨m, h3, h4⟩ := bind_eq_ok h2
  obtain ⟨v, h5, h6⟩ := modAt_ok h3
  cases h4
  cases h1
  refine ⟨v, _, h.next, _, h5, by rw [h6]; exact upd_same .., rfl, hf.blocks _ (Nat.le_refl _),
    upd_same .., ?_⟩
  exact fun env => codeText_line (upd_same ..)

/-- Setters on several objects. -/
def exSetters : List BuildCall :=
  [.newValue .var [b! "v"], .newField (b! "F") (.name (.basic .int)), .newValue .var [b! "w"],
   .setComment (.value 0) (b! "old"), .initWith 0 (b! "%s+%s") [.str (b! "1"), .str (b! "2")],
   .setComment (.value 2) (b! "other"), .setType 0 (.name (.basic .bool)), .setComment (.value 0) (b! "new"),
   .setTag 1 (b! "t"), .setComment (.field 1) (b! "c"), .setType 0 (.name (.basic .int)),
   .newValueDecl .var [0, 2]]
example : ((build exSetters {}).bind fun h => h.valueDecls 5 |>.elim .panic fun d => d.text exEnv h)
    = .ok (b! "var (\n// new\nv int = 1+2\n// other\nw\n)\n") := by decide
example : ((build exSetters {}).bind fun h => (deref h.fields 1).bind fun f => .ok (f.comment, f.tag))
    = .ok (b! "c", b! "t") := by decide

/-! ## C50 -/

theorem CodeOf.means {A T cs l} (hc : CodeOf A T cs l) {env : Env} {H : Heap} (ha : Extends Unchanged A H.args)
    (ht : Extends Unchanged T H.templs) : codeText env H l = concatText (CodeCall.means env H) cs := by
  induction hc with
  | nil => rfl
  | @line c h format args q cs l h1 h2 _ ih =>
    obtain ⟨a, h3, rfl⟩ := ha _ _ h2
    have e : codeText env H (.line format q :: l) = (codeText env H [.line format q]).bind fun x =>
        (codeText env H l).bind fun y => .ok (x ++ y) := concatText_append _ [_] l
    rw [e, codeText_line h3, ih]
    have hm : CodeCall.means env H (c, h) = .ok (fprintf env H format a) := by
      cases c <;> simp only [CodeCall.line?, Option.some.injEq, Prod.mk.injEq, reduceCtorEq] at h1 <;>
        obtain ⟨rfl, rfl⟩ := h1
      · simp [CodeCall.means, fprintf, Arg.shown, sprintf, fmtVerb]
      · simp [CodeCall.means, fprintf, Arg.shown, sprintf, fmtVerb]
      · rfl
      · rfl
    show _ = (CodeCall.means env H (c, h)).bind _
    rw [hm]
    rfl
  | @templ t data h q cs l h2 _ ih =>
    obtain ⟨a, h3, rfl⟩ := ht _ _ h2
    show (CodeElem.text env H (.templ q)).bind _ = (CodeCall.means env H (.renderCode t data, h)).bind _
    have : CodeElem.text env H (.templ q) = CodeCall.means env H (.renderCode t data, h) := by
      simp only [CodeElem.text, deref, h3, CodeCall.means]
      rfl
    rw [this, show concatText (CodeElem.text env H) l = _ from ih]
  | @code b h code cs l h1 _ ih =>
    have e : codeText env H (code ++ l) = (codeText env H code).bind fun x =>
        (codeText env H l).bind fun y => .ok (x ++ y) := concatText_append _ _ _
    show _ = (CodeCall.means env H (.addCode b, h)).bind _
    rw [e, ih]
    simp only [CodeCall.means, h1]
    rfl

theorem receiverText_eq (r : Option ReceiverSpec) :
    (match r with | none => [] | some r => r.text) = receiverText r := by
  cases r with
  | none => rfl
  | some r =>
    simp only [ReceiverSpec.text, receiverText]
    by_cases h : r.name = [] <;> simp [h]

theorem funcText_of {env : Env} {H : Heap} {f : FuncSpec} {code text : GoString}
    (hc : codeText env H f.code = .ok code) (ht : f.text env H = .ok text) :
    FuncText env.isPrint f.comment f.receiver f.name f.signature code text := by
  obtain ⟨sig, h1, ht⟩ := bind_eq_ok ht
  obtain ⟨code', h2, ht⟩ := bind_eq_ok ht
  rw [hc] at h2
  cases h2
  cases ht
  refine ⟨writeComment f.comment, sig, commentBlock_writeComment _, ?_, by rw [← receiverText_eq]; rfl⟩
  show (signatureToBuffer env.isPrint f.signature).bind _ = _
  rw [h1]
  rfl

/-- The calls that follow `NewFunc`. -/
theorem newFunc_built {pre post : List BuildCall} {h g h' : Heap} {r : Option ReceiverSpec}
    {name : GoString} (hf : h.Fresh) (hg : build pre h = .ok g)
    (hb : build (.newFunc r name :: post) g = .ok h') :
    ∃ par l, h'.funcs g.next = some ⟨builtComment g.next post, name, r, builtSig g.next post, l, par⟩ ∧
      CodeOf h'.args h'.templs ((steps (.newFunc r name :: post) g).filterMap (code? g.next)) l := by
  have hg' := (build_built hf hg).fresh
  obtain ⟨g1, h1, hb⟩ := bind_eq_ok hb
  have s := BuildCall.step hg' h1
  have hs := steps_cons (cs := post) h1
  cases h1
  obtain ⟨par, l, h2, h3⟩ := (build_built s.fresh hb).funcs g.next _ (upd_same ..)
  refine ⟨par, l, h2, ?_⟩
  rw [hs]
  exact h3

/-- C50: a function or method that is made by `NewFunc` or `NewMethod` is, after any further calls,
written as: the last comment, `func`, the receiver, the name, the arguments and results that were added,
and between braces the code that was added, in the order of the calls. It is written if the signature
and the code can be. -/
theorem C50_func_text {pre post : List BuildCall} {h g h' : Heap} {r : Option ReceiverSpec}
    {name : GoString} (hf : h.Fresh) (hg : build pre h = .ok g)
    (hb : build (.newFunc r name :: post) g = .ok h') (env : Env) :
    ∃ f, h'.funcs g.next = some f ∧
      (∀ text, f.text env h' = .ok text → ∃ code,
        concatText (CodeCall.means env h') ((steps (.newFunc r name :: post) g).filterMap (code? g.next))
          = .ok code ∧
        FuncText env.isPrint (builtComment g.next post) r name (builtSig g.next post) code text) ∧
      ((builtSig g.next post).valid = true →
        (∀ c ∈ (steps (.newFunc r name :: post) g).filterMap (code? g.next),
          ∃ s, CodeCall.means env h' c = .ok s) → ∃ text, f.text env h' = .ok text) := by
  obtain ⟨par, l, h1, h2⟩ := newFunc_built hf hg hb
  have h3 := h2.means (env := env) (H := h') (.refl Unchanged.refl _) (.refl Unchanged.refl _)
  refine ⟨_, h1, fun text ht => ?_, fun hv hc => ?_⟩
  · obtain ⟨sig, k1, k2⟩ := bind_eq_ok ht
    obtain ⟨code, k3, k4⟩ := bind_eq_ok k2
    exact ⟨code, h3 ▸ k3, funcText_of k3 ht⟩
  · obtain ⟨sig, k1⟩ := buffer_okSig env.isPrint hv
    have k2 : ∃ code, codeText env h' l = .ok code := by
      rw [h3]
      generalize (steps (.newFunc r name :: post) g).filterMap (code? g.next) = cs at hc
      clear h2 h3
      induction cs with
      | nil => exact ⟨_, rfl⟩
      | cons c cs ih =>
        obtain ⟨s, h4⟩ := hc c (by simp)
        obtain ⟨t, h5⟩ := ih fun d hd => hc d (by simp [hd])
        exact ⟨s ++ t, by rw [concatText, h4, h5]; rfl⟩
    obtain ⟨code, k2⟩ := k2
    apply Exists.intro
    show Outcome.bind (signatureToBuffer env.isPrint (builtSig g.next post)) _ = _
    rw [k1]
    show Outcome.bind (codeText env h' l) _ = _
    rw [k2]
    rfl

/-- C50: a code block is rendered, after any calls, as what was in it followed by the code that was added to it, in
the order of the calls. -/
theorem C50_block_text {cs : List BuildCall} {h h' : Heap} (hf : h.Fresh) (hb : build cs h = .ok h') {p : Ptr}
    {b : CodeBlock} (hp : h.blocks p = some b) (env : Env) :
    ∃ l, h'.blocks p = some (b ++ l) ∧
      codeText env h' l = concatText (CodeCall.means env h') ((steps cs h).filterMap (blockCode? p)) := by
  obtain ⟨l, h1, h2⟩ := build_blocks hf hb hp
  exact ⟨l, h1, h2.means (.refl Unchanged.refl _) (.refl Unchanged.refl _)⟩

/-- C50: `&CodeBlock{}` is empty, and the functions `Print`, `Println`, `Printf`, `Printlnf` and `RenderCode` do to a
new block what the methods do. -/
theorem C50_new_block (h : Heap) (c : CodeCall) :
    (∃ g, (BuildCall.newBlock none).exec h = .ok g ∧ g.blocks h.next = some []) ∧
    (BuildCall.newBlock (some c)).exec h = build [.newBlock none, .blockCode h.next c] h := by
  refine ⟨⟨_, rfl, upd_same ..⟩, ?_⟩
  show built (newBlock h (some c)) = Outcome.bind (blockCall _ h.next c) _
  rw [newBlock, blockCall]
  simp only [deref, upd_same]
  show _ = Outcome.bind (Outcome.bind (c.exec [] _) _) _
  cases he : c.exec [] { h with blocks := upd h.blocks h.next [], next := h.next + 1 } <;> rfl

/-- A block that is added to after it was added to a function: the function keeps what was in it. -/
def exBlocks : List BuildCall :=
  [.newBlock (some (.println (b! "a := 1"))), .newFunc none (b! "f"), .blockCode 0 (.printlnf (b! "b := %s") [.str (b! "%d")]),
   .funcCode 2 (.addCode 0), .blockCode 0 (.print (b! "c")), .newBlock none, .blockCode 5 (.addCode 0)]
example : ((build exBlocks {}).bind fun h => (deref h.blocks 0).bind (codeText exEnv h))
    = .ok (b! "a := 1\nb := %d\nc") := by decide +kernel
example : ((build exBlocks {}).bind fun h => (deref h.blocks 5).bind (codeText exEnv h))
    = .ok (b! "a := 1\nb := %d\nc") := by decide +kernel
example : ((build exBlocks {}).bind fun h => (deref h.funcs 2).bind fun f => codeText exEnv h f.code)
    = .ok (b! "a := 1\nb := %d\n") := by decide +kernel

theorem code?_fst (p : Ptr) (c : BuildCall) (h : Heap) : (code? p (c, h)).map Prod.fst = c.code? p := by
  cases c <;> simp only [code?, BuildCall.code?, Option.map_none]
  split <;> rfl

theorem steps_code?_fst (p : Ptr) : ∀ {cs : List BuildCall} {h h' : Heap}, build cs h = .ok h' →
    ((steps cs h).filterMap (code? p)).map Prod.fst = cs.filterMap (BuildCall.code? p)
  | [], _, _, _ => rfl
  | c :: cs, h, h', hb => by
    obtain ⟨g, h1, hb⟩ := bind_eq_ok hb
    rw [steps_cons h1, filterMap_toList (code? p), filterMap_toList (BuildCall.code? p), List.map_append,
      steps_code?_fst p hb, ← code?_fst p c h]
    cases code? p (c, h) <;> rfl

theorem argWritten_str {tbl h i s sh} (ha : ArgWritten tbl h i (.str s) sh) : sh = .str s := by
  cases ha with
  | str => rfl
  | ref hd => cases hd

/-- The text of code that was qualified. -/
theorem CodeOf.written {A T cs l} (hc : CodeOf A T cs l) {env : Env} {h0 H : Heap} {i : Imports}
    (hw : ∀ c ∈ cs, c.1.writable env.isPrint h0) (hA : ∀ q l, A q = some l → h0.args q = some l)
    (hl : ∀ fmt q args, .line fmt q ∈ l → (∀ a ∈ args, a.writable h0) → h0.args q = some args →
      ∃ l' shs, H.args q = some l' ∧ (∀ g, l'.map (Arg.shown env.isPrint g) = shs) ∧
        List.Forall₂ (ArgWritten env.isPrint h0 i) args shs) :
    ∃ texts, codeText env H l = .ok texts.flatten ∧
      List.Forall₂ (CallText env.isPrint h0 i) (cs.map Prod.fst) texts := by
  induction hc with
  | nil => exact ⟨[], rfl, .nil⟩
  | @line c h format args q cs l h1 h2 _ ih =>
    obtain ⟨texts, h3, h4⟩ := ih (fun c hc => hw c (by simp [hc])) (fun f q a hm => hl f q a (by simp [hm]))
    have hwa : ∀ a ∈ args, a.writable h0 := by
      have := hw (c, h) (by simp)
      cases c <;> simp only [CodeCall.line?, Option.some.injEq, Prod.mk.injEq, reduceCtorEq] at h1 <;>
        obtain ⟨rfl, rfl⟩ := h1
      · simp [Arg.writable]
      · simp [Arg.writable]
      · exact this.1
      · exact this.1
    obtain ⟨l', shs, k1, k3, k4⟩ := hl format q args (by simp) hwa (hA _ _ h2)
    have e : codeText env H (.line format q :: l) = (codeText env H [.line format q]).bind fun x =>
        (codeText env H l).bind fun y => .ok (x ++ y) := concatText_append _ [_] l
    rw [e, codeText_line k1, h3]
    suffices hs : CallText env.isPrint h0 i c (fprintf env H format l') from
      ⟨_ :: texts, rfl, .cons hs h4⟩
    unfold fprintf
    rw [k3]
    have := hw (c, h) (by simp)
    cases c <;> simp only [CodeCall.line?, Option.some.injEq, Prod.mk.injEq, reduceCtorEq] at h1 <;>
      obtain ⟨rfl, rfl⟩ := h1
    · obtain ⟨a, b, g1, g2, rfl⟩ := List.forall₂_cons_left_iff.1 k4
      rw [argWritten_str g1, List.forall₂_nil_left_iff.1 g2]
      have hs : ∀ t, sprintf env.isPrint (b! "%s") [.str t] = some t := by simp [sprintf, fmtVerb]
      rw [hs]
      exact .print _
    · obtain ⟨a, b, g1, g2, rfl⟩ := List.forall₂_cons_left_iff.1 k4
      rw [argWritten_str g1, List.forall₂_nil_left_iff.1 g2]
      have hs : ∀ t, sprintf env.isPrint (b! "%s" ++ b! "\n") [.str t] = some (t ++ b! "\n") := by
        simp [sprintf, fmtVerb]
      rw [hs]
      exact .println _
    · cases hp : sprintf env.isPrint _ shs with
      | none => exact absurd hp (this.2 i shs k4)
      | some s => exact .printf k4 hp
    · cases hp : sprintf env.isPrint _ shs with
      | none => exact absurd hp (this.2 i shs k4)
      | some s => exact .printlnf k4 hp
  | @templ t data h q cs l h2 _ ih => exact (hw (.renderCode t data, h) (by simp)).elim
  | @code b h code cs l h1 _ ih => exact (hw (.addCode b, h) (by simp)).elim

/-- C50: when a file is written that has a function made by `NewFunc` or `NewMethod`, and code that was
added by `Print`, `Println`, `Printf` and `Printlnf` with text, numbers and references, then its
signature and the references are written with the qualifiers of the file's imports, and all else as
it was given. -/
theorem C50_rendered {pre post : List BuildCall} {h g h' h'' : Heap} {r : Option ReceiverSpec}
    {name : GoString} (hf : h.Fresh) (hg : build pre h = .ok g)
    (hb : build (.newFunc r name :: post) g = .ok h') {env : Env} {fuel : Nat} {p : Ptr} {file : GoFile}
    {text : GoString} (hp : h'.files p = some file) (hi : Reachable file.imports)
    (hv : (builtSig g.next post).valid = true)
    (hw : ∀ c ∈ post.filterMap (BuildCall.code? g.next), c.writable env.isPrint h')
    (hr : renderFile env fuel p h' = (.ok text, h'')) :
    ∃ i elems, h''.files p = some { file with imports := i } ∧ LaidOut { file with imports := i } elems text ∧
      ∀ k : Nat, file.elements[k]? = some (.func g.next) → ∃ ft texts, elems[k]? = some ft ∧
        FuncText env.isPrint (builtComment g.next post) r name
          ((builtSig g.next post).mapSymbols
            (Symbol.withPrefix i.pkgPath fun p => (prefixOf i p).dropLast)) texts.flatten ft ∧
        List.Forall₂ (CallText env.isPrint h' i) (post.filterMap (BuildCall.code? g.next)) texts := by
  obtain ⟨par, l, h1, h2⟩ := newFunc_built hf hg hb
  obtain ⟨file', i, elems, e1, e2, e3, e4⟩ := C29_layout hr
  rw [hp] at e1; cases e1
  refine ⟨i, elems, e2, e4, fun k hk => ?_⟩
  obtain ⟨file', i', e5, e6, e7, _⟩ := renderFile_ok hr
  rw [hp] at e5; cases e5
  have ei : i' = i := by
    rw [e7, upd_same] at e2
    simpa using e2
  subst ei
  obtain ⟨d1, d2⟩ := func_done env.isPrint (fuel := fuel) hv h' hi.inv (fun _ _ h => h) (.inl h1)
    (fun q l _ hq => ⟨hi.inv, fun _ _ h => h, .inl hq⟩) (List.mem_of_getElem? hk) e6
  have hc : ((steps (.newFunc r name :: post) g).filterMap (code? g.next)).map Prod.fst
      = post.filterMap (BuildCall.code? g.next) := steps_code?_fst g.next hb
  obtain ⟨texts, t1, t2⟩ := h2.written (env := env) (h0 := h') (H := h'') (i := i')
    (fun c hc' => hw _ (hc ▸ List.mem_map_of_mem hc')) (fun _ _ h => h)
    (fun fmt q args k1 k2 k3 => by
      obtain ⟨l', shs, m1, _, m3, m4⟩ := d2 fmt q args k1 k2 k3
      exact ⟨l', shs, m1, m3, m4 _ (Ext.refl _)⟩)
  rw [hc] at t2
  have hlen : k < elems.length := by
    rw [← e3.length_eq]
    exact (List.getElem?_eq_some_iff.1 hk).1
  have ht := List.Forall₂.get e3 (List.getElem?_eq_some_iff.1 hk).1 hlen
  simp only [List.get_eq_getElem, (List.getElem?_eq_some_iff.1 hk).2] at ht
  refine ⟨elems[k], texts, List.getElem?_eq_getElem hlen, ?_, t2⟩
  have d3 := d1.1
  simp only at d3
  simp only [FileElem.text, deref, d3] at ht
  rw [withPrefix_prefixOf]
  exact funcText_of t1 ht

/-- A file with a method, whose signature and code refer to other packages. -/
def exProgram : List BuildCall :=
  [.newFile (b! "a.go") (b! "x/p") (b! "p"), .newFunc (some { name := b! "s", type := b! "S", isPointer := true }) (b! "Do"),
   .funcSig 1 (.addArg (b! "r") (.ptr (.named (newSymbol (b! "net/http") (b! "Request"))))),
   .funcCode 1 (.println (b! "// %d is not a verb here")),
   .setComment (.func 1) (b! "Do does it."),
   .funcCode 1 (.printlnf (b! "%s(%d, %s)") [.symbol (newSymbol (b! "y/http") (b! "Get")), .int 7, .str (b! "r")]),
   .addElement 0 (.func 1), .funcSig 1 (.addResult [] (.basic .bool)), .funcCode 1 (.print (b! "return true\n"))]
example : ((build exProgram {}).bind fun h => (renderFile exEnv 1 0 h).1)
    = .ok (b! "package p\n\nimport \"net/http\"\nimport http1 \"y/http\"\n\n// Do does it.\nfunc (s *S) Do(r *http.Request) bool {\n// %d is not a verb here\nhttp1.Get(7, r)\nreturn true\n}\n") := by decide +kernel
/-- Its calls are ones to which `C50_rendered` applies. -/
example : ∀ c ∈ exProgram.filterMap (BuildCall.code? 1), c.writable (fun _ => true) {} := by
  intro c hc
  rw [show exProgram.filterMap (BuildCall.code? 1) = [.println (b! "// %d is not a verb here"),
    .printlnf (b! "%s(%d, %s)") [.symbol (newSymbol (b! "y/http") (b! "Get")), .int 7, .str (b! "r")],
    .print (b! "return true\n")] from rfl] at hc
  simp only [List.mem_cons, List.not_mem_nil, or_false] at hc
  rcases hc with rfl | rfl | rfl
  · trivial
  · refine ⟨?_, ?_⟩
    · intro a ha
      simp only [List.mem_cons, List.not_mem_nil, or_false] at ha
      rcases ha with rfl | rfl | rfl
      · exact .inr (.inr ⟨_, .symbol _, trivial, by simp⟩)
      · exact .inr (.inl ⟨_, rfl⟩)
      · exact .inl ⟨_, rfl⟩
    · intro i shown hs
      obtain ⟨a, l, h1, h2, rfl⟩ := List.forall₂_cons_left_iff.1 hs
      obtain ⟨b, l, h3, h4, rfl⟩ := List.forall₂_cons_left_iff.1 h2
      obtain ⟨d, l, h5, h6, rfl⟩ := List.forall₂_cons_left_iff.1 h4
      rw [List.forall₂_nil_left_iff.1 h6, argWritten_str h5]
      have hb : b = .int 7 := by
        cases h3 with
        | int => rfl
        | ref hd => cases hd
      obtain ⟨t, rfl⟩ : ∃ t, a = .str t := by
        cases h1 with
        | ref => exact ⟨_, rfl⟩
      rw [hb]
      simp [sprintf, fmtVerb]
  · trivial

end Gopoet
