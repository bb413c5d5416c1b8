import Verif.Spec.GoTypes
import Verif.Proof.TypesLemmas
/-! Lemmas about the conversion from go/types. -/

namespace Gopoet

/-- The symbol with the package and the name of a go/types object. -/
def TypesName.toSymbol (n : TypesName) : Symbol :=
  match n.pkg with
  | none => ⟨⟨[], []⟩, n.name⟩
  | some p => ⟨⟨p.path, p.name⟩, n.name⟩

/-- The name is in a package that has a path. -/
def TypesName.Packaged (n : TypesName) : Prop := ∃ p, n.pkg = some p ∧ p.path ≠ []

theorem symbolForTypesName_ok {n : TypesName} (h : n.Packaged) :
    symbolForTypesName n = .ok n.toSymbol ∧ n.toSymbol.ident = n.ident := by
  obtain ⟨p, hp, hne⟩ := h
  unfold symbolForTypesName TypesName.toSymbol TypesName.ident
  simp only [hp, packageForGoType]
  exact ⟨rfl, by simp [Symbol.ident, hne]⟩

/-- The outcome of the conversion of a type and what it should be. -/
def Faithful (r : Outcome TypeName) (d : Option (GoType TypeIdent)) (ns : List TypesName) : Prop :=
  (∃ t, r = .ok t ∧ t.valid = true ∧ d = some (t.meaning Symbol.ident) ∧
    t.symbols = ns.map TypesName.toSymbol) ∨ (r = .panic ∧ d = none)

def FaithfulSig (r : Outcome Signature) (d : Option (GoSig TypeIdent)) (ns : List TypesName) : Prop :=
  (∃ t, r = .ok t ∧ t.valid = true ∧ d = some (t.meaning Symbol.ident) ∧
    t.symbols = ns.map TypesName.toSymbol) ∨ (r = .panic ∧ d = none)

def FaithfulVars (r : Outcome (List ArgType)) (l : List GTVar) : Prop :=
  (∃ as, r = .ok as ∧ validArgs as = true ∧
    (∀ v named, (v = true → l = [] ∨ lastVarIsSlice l = true) →
      denoteVars v named l = some (meaningArgs Symbol.ident v named as)) ∧
    symbolsArgs as = (namesVars l).map TypesName.toSymbol ∧
    hasNames as = varsNamed l ∧ as.isEmpty = l.isEmpty ∧ lastIsSlice as = lastVarIsSlice l) ∨
  (r = .panic ∧ ∀ v named, (v = true → l = [] ∨ lastVarIsSlice l = true) →
      denoteVars v named l = none)

def FaithfulRecv (r : Outcome (List ArgType)) (recv : GTRecv) : Prop :=
  (∃ as, r = .ok as ∧ validArgs as = true ∧
    (∀ named, denoteRecv named recv = some (meaningArgs Symbol.ident false named as)) ∧
    symbolsArgs as = (namesRecv recv).map TypesName.toSymbol ∧
    hasNames as = recv.isNamed) ∨
  (r = .panic ∧ ∀ named, denoteRecv named recv = none)

def FaithfulFields (r : Outcome (List FieldType)) (l : List GTField) : Prop :=
  (∃ fs, r = .ok fs ∧ validFields fs = true ∧
    denoteFields l = some (meaningFields Symbol.ident fs) ∧
    symbolsFields fs = (namesFields l).map TypesName.toSymbol) ∨
  (r = .panic ∧ denoteFields l = none)

def FaithfulMethods (r : Outcome (List MethodType)) (l : List GTMethod) : Prop :=
  (∃ ms, r = .ok ms ∧ validMethods ms = true ∧
    denoteMethods l = some (meaningMethods Symbol.ident ms) ∧
    symbolsMethods ms = (namesMethods l).map TypesName.toSymbol) ∨
  (r = .panic ∧ denoteMethods l = none)

theorem embeds_faithful : ∀ (l : List (Option TypesName)), (∀ n ∈ embedNames l, n.Packaged) →
    (∃ es, embedsForGoType l = .ok es ∧
      denoteEmbeds l = some (es.map fun s => .embed s.ident) ∧
      es = (embedNames l).map TypesName.toSymbol) ∨
    (embedsForGoType l = .panic ∧ denoteEmbeds l = none)
  | [], _ => .inl ⟨[], rfl, rfl, rfl⟩
  | none :: l, _ => .inr ⟨rfl, rfl⟩
  | some n :: l, h => by
    simp only [embedNames, List.mem_cons, forall_eq_or_imp] at h
    obtain ⟨hs, hi⟩ := symbolForTypesName_ok h.1
    rcases embeds_faithful l h.2 with ⟨es, h1, h2, h3⟩ | ⟨h1, h2⟩
    · refine .inl ⟨n.toSymbol :: es, ?_, ?_, ?_⟩
      · simp [embedsForGoType, hs, h1]
      · simp [denoteEmbeds, h2, hi]
      · simp [embedNames, h3]
    · exact .inr ⟨by simp [embedsForGoType, hs, h1], by simp [denoteEmbeds, h2]⟩

theorem basic_faithful (k : TypesKind) : Faithful (basicForGoType k) (GT.denotes (.basic k))
    (GT.names (.basic k)) := by
  cases k <;> first
    | exact .inr ⟨rfl, rfl⟩
    | exact .inl ⟨_, rfl, rfl, rfl, rfl⟩

theorem isNil_false {t : TypeName} (h : t.valid = true) : t.isNil = false := not_isNil_of_valid h

theorem meaningArgs_append (m : Symbol → TypeIdent) (v named : Bool) (b : List ArgType)
    (hb : v = true → b ≠ []) : ∀ a : List ArgType,
    meaningArgs m v named (a ++ b) = meaningArgs m false named a ++ meaningArgs m v named b
  | [] => rfl
  | ⟨n, t⟩ :: l => by
    have : (v && (l ++ b).isEmpty) = false := by
      cases v with
      | false => rfl
      | true =>
        have := hb rfl
        cases l <;> cases b <;> simp_all
    simp only [List.cons_append, meaningArgs, this, Bool.false_and, Bool.false_eq_true, if_false,
      meaningArgs_append m v named b hb l]

theorem lastIsSlice_append {b : List ArgType} (hb : lastIsSlice b = true) (a : List ArgType) :
    lastIsSlice (a ++ b) = true := by
  have hne : b ≠ [] := by intro h; subst h; simp [lastIsSlice] at hb
  unfold lastIsSlice at hb ⊢
  rw [List.getLast?_append, List.getLast?_eq_some_getLast hne] at *
  exact hb

theorem symbolsArgs_append (a b : List ArgType) :
    symbolsArgs (a ++ b) = symbolsArgs a ++ symbolsArgs b := by
  induction a with
  | nil => rfl
  | cons x l ih => obtain ⟨n, t⟩ := x; simp [symbolsArgs, ih]

theorem validArgs_append (a b : List ArgType) :
    validArgs (a ++ b) = (validArgs a && validArgs b) := by
  induction a with
  | nil => rfl
  | cons x l ih => obtain ⟨n, t⟩ := x; simp [validArgs, ih, Bool.and_assoc]

theorem lastIsSlice_cons_cons (a b : ArgType) (l : List ArgType) :
    lastIsSlice (a :: b :: l) = lastIsSlice (b :: l) := by
  simp [lastIsSlice, List.getLast?_cons_cons]

theorem lastIsSlice_single (n : GoString) (t : TypeName) :
    lastIsSlice [⟨n, t⟩] = match t with | .slice _ => true | _ => false := by
  cases t <;> rfl

theorem isSlice_of_conv : ∀ {t : GT} {n : TypeName}, typeNameForGoType t = .ok n →
    (match n with | .slice _ => true | _ => false) = (match t with | .slice _ => true | _ => false) := by
  intro t n h
  have key : ∀ {α : Type} {x : Outcome α} {f : α → Outcome TypeName},
      (x >>= f) = .ok n → ∃ a, x = .ok a ∧ f a = .ok n := by
    intro α x f h
    cases x with
    | ok a => exact ⟨a, rfl, h⟩
    | panic => cases h
    | hang => cases h
  cases t with
  | named m => obtain ⟨a, _, h⟩ := key h; cases h; rfl
  | basic k => cases k <;> cases h <;> rfl
  | map k e =>
    obtain ⟨a, _, h⟩ := key h
    obtain ⟨b, _, h⟩ := key h
    unfold mapType at h; split at h <;> cases h; rfl
  | slice e => obtain ⟨a, _, h⟩ := key h; unfold sliceType at h; split at h <;> cases h; rfl
  | array e k => obtain ⟨a, _, h⟩ := key h; unfold arrayType at h; split at h <;> cases h; rfl
  | pointer e => obtain ⟨a, _, h⟩ := key h; unfold pointerType at h; split at h <;> cases h; rfl
  | chan d e =>
    have h' : ∃ a d', channelType a d' = .ok n := by
      cases d with
      | sendRecv => obtain ⟨a, _, h⟩ := key h; exact ⟨_, _, h⟩
      | sendOnly => obtain ⟨a, _, h⟩ := key h; exact ⟨_, _, h⟩
      | recvOnly => obtain ⟨a, _, h⟩ := key h; exact ⟨_, _, h⟩
      | other _ => cases h
    obtain ⟨a, d', h⟩ := h'
    unfold channelType at h
    simp only at h
    generalize (if d' = 0 then bothDir else d') = d'' at h
    by_cases hc : a.isNil || decide (d'' &&& ~~~bothDir ≠ 0)
    · simp_all
    · simp_all; subst h; rfl
  | signature s =>
    obtain ⟨a, _, h⟩ := key h
    have : n = .func a := by
      unfold funcTypeFromSig at h
      by_cases h1 : a.args.any (·.type.isNil)
      · simp [h1] at h
      · rw [if_neg h1] at h
        by_cases h2 : a.results.any (·.type.isNil)
        · simp [h2] at h
        · rw [if_neg h2] at h
          by_cases h3 : a.isVariadic
          · rw [if_pos h3] at h
            split at h
            · cases h
            · split at h <;> cases h; rfl
          · rw [if_neg h3] at h; cases h; rfl
    subst this; rfl
  | struct fs => obtain ⟨a, _, h⟩ := key h; cases h; rfl
  | interface es ms =>
    obtain ⟨a, _, h⟩ := key h
    obtain ⟨b, _, h⟩ := key h
    cases h; rfl
  | other => cases h

mutual
theorem conv_type : ∀ (t : GT), t.wf = true → (∀ n ∈ t.names, n.Packaged) →
    Faithful (typeNameForGoType t) t.denotes t.names
  | .named n, _, h => by
    obtain ⟨h1, h2⟩ := symbolForTypesName_ok (h n (by simp [GT.names]))
    refine .inl ⟨.named n.toSymbol, ?_, rfl, ?_, rfl⟩
    · simp [typeNameForGoType, h1, namedType]
    · simp [GT.denotes, TypeName.meaning, h2]
  | .basic k, _, _ => basic_faithful k
  | .map k e, hw, hn => by
    simp only [GT.wf, Bool.and_eq_true] at hw
    simp only [GT.names, List.mem_append] at hn
    rcases conv_type k hw.1 (fun n h => hn n (.inl h)) with ⟨a, h1, h2, h3, h4⟩ | ⟨h1, h3⟩
    · rcases conv_type e hw.2 (fun n h => hn n (.inr h)) with ⟨b, g1, g2, g3, g4⟩ | ⟨g1, g3⟩
      · refine .inl ⟨.map b a, ?_, ?_, ?_, ?_⟩
        · simp [typeNameForGoType, h1, g1, mapType, isNil_false h2, isNil_false g2]
        · simp [TypeName.valid, h2, g2]
        · simp [GT.denotes, h3, g3, TypeName.meaning]
        · simp [TypeName.symbols, GT.names, h4, g4]
      · exact .inr ⟨by simp [typeNameForGoType, h1, g1], by simp [GT.denotes, h3, g3]⟩
    · exact .inr ⟨by simp [typeNameForGoType, h1], by simp [GT.denotes, h3]⟩
  | .slice e, hw, hn => by
    rcases conv_type e hw hn with ⟨a, h1, h2, h3, h4⟩ | ⟨h1, h3⟩
    · refine .inl ⟨.slice a, ?_, h2, ?_, h4⟩
      · simp [typeNameForGoType, h1, sliceType, isNil_false h2]
      · simp [GT.denotes, h3, TypeName.meaning]
    · exact .inr ⟨by simp [typeNameForGoType, h1], by simp [GT.denotes, h3]⟩
  | .array e k, hw, hn => by
    rcases conv_type e hw hn with ⟨a, h1, h2, h3, h4⟩ | ⟨h1, h3⟩
    · by_cases hk : k < 0
      · exact .inr ⟨by simp [typeNameForGoType, h1, arrayType, hk], by simp [GT.denotes, hk]⟩
      · refine .inl ⟨.array a k, ?_, ?_, ?_, h4⟩
        · simp [typeNameForGoType, h1, arrayType, isNil_false h2, hk]
        · simp [TypeName.valid, h2]; omega
        · simp [GT.denotes, h3, TypeName.meaning, hk]
    · exact .inr ⟨by simp [typeNameForGoType, h1], by simp [GT.denotes, h3]⟩
  | .pointer e, hw, hn => by
    rcases conv_type e hw hn with ⟨a, h1, h2, h3, h4⟩ | ⟨h1, h3⟩
    · refine .inl ⟨.ptr a, ?_, h2, ?_, h4⟩
      · simp [typeNameForGoType, h1, pointerType, isNil_false h2]
      · simp [GT.denotes, h3, TypeName.meaning]
    · exact .inr ⟨by simp [typeNameForGoType, h1], by simp [GT.denotes, h3]⟩
  | .chan d e, hw, hn => by
    rcases conv_type e hw hn with ⟨a, h1, h2, h3, h4⟩ | ⟨h1, h3⟩
    · cases d with
      | sendRecv =>
        refine .inl ⟨.chan a bothDir, ?_, ?_, ?_, h4⟩
        · simp [typeNameForGoType, h1, channelType, isNil_false h2, bothDir]
        · simp [TypeName.valid, h2]
        · simp [GT.denotes, h3, TypeName.meaning, TypesDir.dir]; rfl
      | sendOnly =>
        refine .inl ⟨.chan a sendDir, ?_, ?_, ?_, h4⟩
        · simp [typeNameForGoType, h1, channelType, isNil_false h2, bothDir, sendDir]
        · simp [TypeName.valid, h2]
        · simp [GT.denotes, h3, TypeName.meaning, TypesDir.dir]; rfl
      | recvOnly =>
        refine .inl ⟨.chan a recvDir, ?_, ?_, ?_, h4⟩
        · simp [typeNameForGoType, h1, channelType, isNil_false h2, bothDir, recvDir]
        · simp [TypeName.valid, h2]
        · simp [GT.denotes, h3, TypeName.meaning, TypesDir.dir]; rfl
      | other k => exact .inr ⟨rfl, rfl⟩
    · refine .inr ⟨?_, ?_⟩
      · cases d <;> simp [typeNameForGoType, h1]
      · cases d <;> simp [GT.denotes, h3, TypesDir.dir]
  | .signature s, hw, hn => by
    rcases conv_sig s hw hn with ⟨a, h1, h2, h3, h4⟩ | ⟨h1, h3⟩
    · refine .inl ⟨.func a, ?_, h2, ?_, h4⟩
      · simp [typeNameForGoType, h1, funcTypeFromSig_valid h2]
      · simp [GT.denotes, h3, TypeName.meaning]
    · exact .inr ⟨by simp [typeNameForGoType, h1], by simp [GT.denotes, h3]⟩
  | .struct fs, hw, hn => by
    rcases conv_fields fs hw hn with ⟨a, h1, h2, h3, h4⟩ | ⟨h1, h3⟩
    · refine .inl ⟨.struct a, ?_, h2, ?_, h4⟩
      · simp [typeNameForGoType, h1, structType]
      · simp [GT.denotes, h3, TypeName.meaning]
    · exact .inr ⟨by simp [typeNameForGoType, h1], by simp [GT.denotes, h3]⟩
  | .interface es ms, hw, hn => by
    simp only [GT.names, List.mem_append] at hn
    rcases embeds_faithful es (fun n h => hn n (.inl h)) with ⟨a, h1, h3, h4⟩ | ⟨h1, h3⟩
    · rcases conv_methods ms hw (fun n h => hn n (.inr h)) with ⟨b, g1, g2, g3, g4⟩ | ⟨g1, g3⟩
      · refine .inl ⟨.interface b a, ?_, g2, ?_, ?_⟩
        · simp [typeNameForGoType, h1, g1, interfaceType]
        · simp [GT.denotes, h3, g3, TypeName.meaning]
        · simp [TypeName.symbols, GT.names, h4, g4]
      · exact .inr ⟨by simp [typeNameForGoType, h1, g1], by simp [GT.denotes, h3, g3]⟩
    · exact .inr ⟨by simp [typeNameForGoType, h1], by simp [GT.denotes, h3]⟩
  | .other, _, _ => .inr ⟨rfl, rfl⟩
theorem conv_sig : ∀ (s : GTSig), s.wf = true → (∀ n ∈ s.names, n.Packaged) →
    FaithfulSig (signatureFromGoType s) s.denotes s.names
  | .mk recv ps rs v, hw, hn => by
    simp only [GTSig.wf, Bool.and_eq_true, Bool.or_eq_true, Bool.not_eq_true'] at hw
    obtain ⟨⟨⟨hw1, hw2⟩, hw3⟩, hv⟩ := hw
    simp only [GTSig.names, List.mem_append] at hn
    have hv' : v = true → lastVarIsSlice ps = true := by
      intro h; rcases hv with h' | h'
      · rw [h'] at h; cases h
      · exact h'
    rcases conv_vars ps hw2 (fun n h => hn n (.inl (.inr h))) with
      ⟨as, h1, h2, h3, h4, h5, h6, h7⟩ | ⟨h1, h3⟩
    · rcases conv_vars rs hw3 (fun n h => hn n (.inr h)) with
        ⟨bs, g1, g2, g3, g4, g5, g6, g7⟩ | ⟨g1, g3⟩
      · rcases conv_recv recv hw1 (fun n h => hn n (.inl (.inl h))) with
          ⟨cs, k1, k2, k3, k4, k5⟩ | ⟨k1, k3⟩
        · have hne : v = true → as ≠ [] := by
            intro h
            have := hv' h
            rw [← h7] at this
            intro h0; subst h0; simp [lastIsSlice] at this
          have hnames : hasNames (cs ++ as) = (recv.isNamed || varsNamed ps) := by
            simp only [hasNames, List.any_append] at h5 k5 ⊢
            rw [h5, k5]
          refine .inl ⟨⟨cs ++ as, bs, v⟩, ?_, ?_, ?_, ?_⟩
          · simp [signatureFromGoType, h1, g1, k1]
          · simp only [Signature.valid, validArgs_append, k2, h2, g2, Bool.and_self, Bool.true_and,
              Bool.or_eq_true, Bool.not_eq_true']
            cases v with
            | false => exact .inl rfl
            | true => exact .inr (lastIsSlice_append (by rw [h7]; exact hv' rfl) _)
          · simp only [GTSig.denotes, k3, h3 v _ (fun h => .inr (hv' h)),
              g3 false _ (by simp), Option.bind_some, Option.map_some, Signature.meaning, hnames,
              meaningArgs_append _ _ _ _ hne, g5]
          · simp [Signature.symbols, GTSig.names, symbolsArgs_append, k4, h4, g4]
        · exact .inr ⟨by simp [signatureFromGoType, h1, g1, k1], by simp [GTSig.denotes, k3]⟩
      · refine .inr ⟨by simp [signatureFromGoType, h1, g1], ?_⟩
        simp only [GTSig.denotes, g3 false _ (by simp), h3 v _ (fun h => .inr (hv' h))]
        cases denoteRecv (recv.isNamed || varsNamed ps) recv <;> rfl
    · refine .inr ⟨by simp [signatureFromGoType, h1], ?_⟩
      simp only [GTSig.denotes, h3 v _ (fun h => .inr (hv' h))]
      cases denoteRecv (recv.isNamed || varsNamed ps) recv <;> rfl
theorem conv_recv : ∀ (r : GTRecv), wfRecv r = true → (∀ n ∈ namesRecv r, n.Packaged) →
    FaithfulRecv (recvArgForGoType r) r
  | .none, _, _ => .inl ⟨[], rfl, rfl, fun _ => rfl, rfl, rfl⟩
  | .iface, _, _ => .inl ⟨[], rfl, rfl, fun _ => rfl, rfl, rfl⟩
  | .concrete n t, hw, hn => by
    rcases conv_type t hw hn with ⟨a, h1, h2, h3, h4⟩ | ⟨h1, h3⟩
    · refine .inl ⟨[⟨n, a⟩], ?_, ?_, ?_, ?_, ?_⟩
      · simp [recvArgForGoType, h1]
      · simp [validArgs, h2]
      · intro named; simp [denoteRecv, h3, meaningArgs]
      · simp [symbolsArgs, namesRecv, h4]
      · simp [hasNames, GTRecv.isNamed]
    · exact .inr ⟨by simp [recvArgForGoType, h1], fun _ => by simp [denoteRecv, h3]⟩
theorem conv_vars : ∀ (l : List GTVar), wfVars l = true → (∀ n ∈ namesVars l, n.Packaged) →
    FaithfulVars (argsTypesForGoType l) l
  | [], _, _ => .inl ⟨[], rfl, rfl, fun _ _ _ => rfl, rfl, rfl, rfl, rfl⟩
  | .mk n t :: l, hw, hn => by
    simp only [wfVars, Bool.and_eq_true] at hw
    simp only [namesVars, List.mem_append] at hn
    have hsub : ∀ v, (v = true → GTVar.mk n t :: l = [] ∨ lastVarIsSlice (.mk n t :: l) = true) →
        (v = true → l = [] ∨ lastVarIsSlice l = true) := by
      intro v h hv
      rcases h hv with h | h
      · cases h
      · cases l with
        | nil => exact .inl rfl
        | cons x l => right; simpa [lastVarIsSlice] using h
    have hlast : ∀ v, (v = true → GTVar.mk n t :: l = [] ∨ lastVarIsSlice (.mk n t :: l) = true) →
        (v && l.isEmpty) = true → ∃ e, t = .slice e := by
      intro v h hv
      simp only [Bool.and_eq_true, List.isEmpty_iff] at hv
      rcases h hv.1 with h | h
      · cases h
      · obtain ⟨_, hl⟩ := hv; subst hl
        cases t <;> simp [lastVarIsSlice] at h ⊢
    rcases conv_type t hw.1 (fun n h => hn n (.inl h)) with ⟨a, h1, h2, h3, h4⟩ | ⟨h1, h3⟩
    · rcases conv_vars l hw.2 (fun n h => hn n (.inr h)) with
        ⟨as, g1, g2, g3, g4, g5, g6, g7⟩ | ⟨g1, g3⟩
      · refine .inl ⟨⟨n, a⟩ :: as, ?_, ?_, ?_, ?_, ?_, rfl, ?_⟩
        · simp [argsTypesForGoType, h1, g1]
        · simp [validArgs, h2, g2]
        · intro v named hv
          have hg := g3 v named (hsub v hv)
          simp only [denoteVars, meaningArgs, g6, hg]
          by_cases hc : (v && l.isEmpty) = true
          · obtain ⟨e, rfl⟩ := hlast v hv hc
            have hs := isSlice_of_conv h1
            cases a <;> simp at hs
            rename_i a
            simp only [hc, if_true, denoteElem, meaningElem]
            simp only [GT.denotes, TypeName.meaning] at h3
            cases he : e.denotes with
            | none => simp [he] at h3
            | some d => simp [he] at h3; simp [h3]
          · simp [hc, h3]
        · simp [symbolsArgs, namesVars, h4, g4]
        · simp only [hasNames, List.any_cons] at g5 ⊢
          rw [g5]; rfl
        · cases l with
          | nil =>
            have : as = [] := by simpa using g6
            subst this
            rw [lastIsSlice_single, isSlice_of_conv h1]
            cases t <;> rfl
          | cons x l =>
            cases as with
            | nil => simp at g6
            | cons y as =>
              rw [lastIsSlice_cons_cons, g7]
              simp [lastVarIsSlice]
      · refine .inr ⟨by simp [argsTypesForGoType, h1, g1], ?_⟩
        intro v named hv
        simp only [denoteVars, g3 v named (hsub v hv), Option.map_none]
        split
        · cases denoteElem t <;> rfl
        · cases t.denotes <;> rfl
    · refine .inr ⟨by simp [argsTypesForGoType, h1], ?_⟩
      intro v named hv
      simp only [denoteVars]
      by_cases hc : (v && l.isEmpty) = true
      · obtain ⟨e, rfl⟩ := hlast v hv hc
        simp only [hc, if_true, denoteElem]
        simp only [GT.denotes, Option.map_eq_none_iff] at h3
        simp [h3]
      · simp [hc, h3]
theorem conv_fields : ∀ (l : List GTField), wfFields l = true →
    (∀ n ∈ namesFields l, n.Packaged) → FaithfulFields (fieldsForGoType l) l
  | [], _, _ => .inl ⟨[], rfl, rfl, rfl, rfl⟩
  | .mk n an t tag :: l, hw, hn => by
    simp only [wfFields, Bool.and_eq_true] at hw
    simp only [namesFields, List.mem_append] at hn
    rcases conv_type t hw.1.2 (fun n h => hn n (.inl h)) with ⟨a, h1, h2, h3, h4⟩ | ⟨h1, h3⟩
    · rcases conv_fields l hw.2 (fun n h => hn n (.inr h)) with ⟨as, g1, g2, g3, g4⟩ | ⟨g1, g3⟩
      · refine .inl ⟨⟨if !an then n else [], a, tag⟩ :: as, ?_, ?_, ?_, ?_⟩
        · simp [fieldsForGoType, h1, g1]
        · simp [validFields, h2, g2]
        · have := hw.1.1
          cases an with
          | true => simp [denoteFields, h3, g3, meaningFields, optName]
          | false =>
            have hn' : n ≠ [] := by simpa using this
            simp [denoteFields, h3, g3, meaningFields, optName, hn']
        · simp [symbolsFields, namesFields, h4, g4]
      · exact .inr ⟨by simp [fieldsForGoType, h1, g1], by simp [denoteFields, g3]⟩
    · exact .inr ⟨by simp [fieldsForGoType, h1], by simp [denoteFields, h3]⟩
theorem conv_methods : ∀ (l : List GTMethod), wfMethods l = true →
    (∀ n ∈ namesMethods l, n.Packaged) → FaithfulMethods (methodsForGoType l) l
  | [], _, _ => .inl ⟨[], rfl, rfl, rfl, rfl⟩
  | .mk n s :: l, hw, hn => by
    simp only [wfMethods, Bool.and_eq_true] at hw
    simp only [namesMethods, List.mem_append] at hn
    rcases conv_sig s hw.1 (fun n h => hn n (.inl h)) with ⟨a, h1, h2, h3, h4⟩ | ⟨h1, h3⟩
    · rcases conv_methods l hw.2 (fun n h => hn n (.inr h)) with ⟨as, g1, g2, g3, g4⟩ | ⟨g1, g3⟩
      · refine .inl ⟨⟨n, a⟩ :: as, ?_, ?_, ?_, ?_⟩
        · simp [methodsForGoType, h1, g1]
        · simp [validMethods, h2, g2]
        · simp [denoteMethods, h3, g3, meaningMethods]
        · simp [symbolsMethods, namesMethods, h4, g4]
      · exact .inr ⟨by simp [methodsForGoType, h1, g1], by simp [denoteMethods, g3]⟩
    · exact .inr ⟨by simp [methodsForGoType, h1], by simp [denoteMethods, h3]⟩
end

theorem bind_eq_ok {α β : Type} {x : Outcome α} {f : α → Outcome β} {b : β}
    (h : (x >>= f) = .ok b) : ∃ a, x = .ok a ∧ f a = .ok b := by
  cases x with
  | ok a => exact ⟨a, rfl, h⟩
  | panic => cases h
  | hang => cases h

theorem symbolForTypesName_pkg {n : TypesName} {s : Symbol} (h : symbolForTypesName n = .ok s) :
    n.pkg ≠ none := by
  intro hn
  simp [symbolForTypesName, packageForGoType, hn] at h

theorem embeds_pkg : ∀ {l : List (Option TypesName)} {es}, embedsForGoType l = .ok es →
    ∀ n ∈ embedNames l, n.pkg ≠ none
  | [], _, _ => by simp [embedNames]
  | none :: l, _, h => by cases h
  | some n :: l, _, h => by
    obtain ⟨a, h1, h⟩ := bind_eq_ok h
    obtain ⟨b, h2, h⟩ := bind_eq_ok h
    simp only [embedNames, List.mem_cons, forall_eq_or_imp]
    exact ⟨symbolForTypesName_pkg h1, embeds_pkg h2⟩

mutual
theorem conv_pkg : ∀ {t : GT} {tn}, typeNameForGoType t = .ok tn → ∀ n ∈ t.names, n.pkg ≠ none
  | .named n, _, h => by
    obtain ⟨a, h1, h⟩ := bind_eq_ok h
    simpa [GT.names] using symbolForTypesName_pkg h1
  | .basic k, _, _ => by cases k <;> simp [GT.names]
  | .map k e, _, h => by
    obtain ⟨a, h1, h⟩ := bind_eq_ok h
    obtain ⟨b, h2, h⟩ := bind_eq_ok h
    simp only [GT.names, List.mem_append]
    rintro n (hn | hn)
    · exact conv_pkg h1 n hn
    · exact conv_pkg h2 n hn
  | .slice e, _, h => by obtain ⟨a, h1, h⟩ := bind_eq_ok h; exact (conv_pkg h1 :)
  | .array e k, _, h => by obtain ⟨a, h1, h⟩ := bind_eq_ok h; exact (conv_pkg h1 :)
  | .pointer e, _, h => by obtain ⟨a, h1, h⟩ := bind_eq_ok h; exact (conv_pkg h1 :)
  | .chan d e, _, h => by
    cases d with
    | sendRecv => obtain ⟨a, h1, h⟩ := bind_eq_ok h; exact (conv_pkg h1 :)
    | sendOnly => obtain ⟨a, h1, h⟩ := bind_eq_ok h; exact (conv_pkg h1 :)
    | recvOnly => obtain ⟨a, h1, h⟩ := bind_eq_ok h; exact (conv_pkg h1 :)
    | other _ => cases h
  | .signature s, _, h => by obtain ⟨a, h1, h⟩ := bind_eq_ok h; exact (conv_pkg_sig h1 :)
  | .struct fs, _, h => by obtain ⟨a, h1, h⟩ := bind_eq_ok h; exact (conv_pkg_fields h1 :)
  | .interface es ms, _, h => by
    obtain ⟨a, h1, h⟩ := bind_eq_ok h
    obtain ⟨b, h2, h⟩ := bind_eq_ok h
    simp only [GT.names, List.mem_append]
    rintro n (hn | hn)
    · exact embeds_pkg h1 n hn
    · exact conv_pkg_methods h2 n hn
  | .other, _, h => by cases h
theorem conv_pkg_sig : ∀ {s : GTSig} {x}, signatureFromGoType s = .ok x →
    ∀ n ∈ s.names, n.pkg ≠ none
  | .mk recv ps rs v, _, h => by
    obtain ⟨a, h1, h⟩ := bind_eq_ok h
    obtain ⟨b, h2, h⟩ := bind_eq_ok h
    obtain ⟨c, h3, h⟩ := bind_eq_ok h
    simp only [GTSig.names, List.mem_append]
    rintro n ((hn | hn) | hn)
    · exact conv_pkg_recv h3 n hn
    · exact conv_pkg_vars h1 n hn
    · exact conv_pkg_vars h2 n hn
theorem conv_pkg_recv : ∀ {r : GTRecv} {x}, recvArgForGoType r = .ok x →
    ∀ n ∈ namesRecv r, n.pkg ≠ none
  | .none, _, _ => by simp [namesRecv]
  | .iface, _, _ => by simp [namesRecv]
  | .concrete n t, _, h => by obtain ⟨a, h1, h⟩ := bind_eq_ok h; exact (conv_pkg h1 :)
theorem conv_pkg_vars : ∀ {l : List GTVar} {x}, argsTypesForGoType l = .ok x →
    ∀ n ∈ namesVars l, n.pkg ≠ none
  | [], _, _ => by simp [namesVars]
  | .mk n t :: l, _, h => by
    obtain ⟨a, h1, h⟩ := bind_eq_ok h
    obtain ⟨b, h2, h⟩ := bind_eq_ok h
    simp only [namesVars, List.mem_append]
    rintro n (hn | hn)
    · exact conv_pkg h1 n hn
    · exact conv_pkg_vars h2 n hn
theorem conv_pkg_fields : ∀ {l : List GTField} {x}, fieldsForGoType l = .ok x →
    ∀ n ∈ namesFields l, n.pkg ≠ none
  | [], _, _ => by simp [namesFields]
  | .mk n an t tag :: l, _, h => by
    obtain ⟨a, h1, h⟩ := bind_eq_ok h
    obtain ⟨b, h2, h⟩ := bind_eq_ok h
    simp only [namesFields, List.mem_append]
    rintro n (hn | hn)
    · exact conv_pkg h1 n hn
    · exact conv_pkg_fields h2 n hn
theorem conv_pkg_methods : ∀ {l : List GTMethod} {x}, methodsForGoType l = .ok x →
    ∀ n ∈ namesMethods l, n.pkg ≠ none
  | [], _, _ => by simp [namesMethods]
  | .mk n s :: l, _, h => by
    obtain ⟨a, h1, h⟩ := bind_eq_ok h
    obtain ⟨b, h2, h⟩ := bind_eq_ok h
    simp only [namesMethods, List.mem_append]
    rintro n (hn | hn)
    · exact conv_pkg_sig h1 n hn
    · exact conv_pkg_methods h2 n hn
end

end Gopoet
