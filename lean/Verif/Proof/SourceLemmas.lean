import Verif.Proof.TruthLemmas
import Verif.Proof.SettledData
/-!
# After a qualification pass: which names are left in what it touched

A package that is mentioned afterwards was mentioned before with the same name, or has the name that
the imports use for it.
-/

namespace Gopoet
open Imports

/-- The packages of the result are among `S` or have the name that the imports use for them. -/
def Sourced {α : Type} (S : List Package) (Q : α → List Package) (x : IM α) : Prop :=
  ∀ i a j, x i = (.ok a, j) → ∀ pk ∈ Q a, pk ∈ S ∨ QPkg j pk

theorem Sourced.pure {α S} {Q : α → List Package} {a : α} (h : ∀ pk ∈ Q a, pk ∈ S) :
    Sourced S Q (pure a : IM α) := by
  intro i b j hx pk hp
  obtain ⟨e1, e2⟩ := pure_eq_ok hx
  subst e1
  exact .inl (h pk hp)

theorem sourced_converted {acc : Accepts} {o : TVal} {t : Outcome TypeName} :
    Sourced (TVal.packages o) (fun r : TVal × Bool => r.1.packages) (qualifyConverted acc o t) := by
  intro i r j hx pk hp
  rw [qualifyConverted] at hx
  obtain ⟨a, i1, h1, hx⟩ := IM.bind_eq_ok hx
  obtain ⟨⟨t', c⟩, i2, h2, hx⟩ := IM.bind_eq_ok hx
  dsimp only at hx
  rw [IM.ite_apply] at hx
  split at hx
  · obtain ⟨e1, e2⟩ := pure_eq_ok hx
    subst e1 e2
    refine .inr (TypeSettled.written (qualifyType_settled _ h2).2 ?_)
    simpa [TVal.packages] using hp
  · obtain ⟨e1, e2⟩ := pure_eq_ok hx
    subst e1
    exact .inl hp

theorem sourced_object {acc : Accepts} {o : TVal} {s : SymbolOrMethodRef} :
    Sourced (TVal.packages o) (fun r : TVal × Bool => r.1.packages) (qualifyObject acc o s) := by
  intro i r j hx pk hp
  cases s <;>
  · rw [qualifyObject] at hx
    obtain ⟨a, i1, h1, hx⟩ := IM.bind_eq_ok hx
    have g := ensureImported_settled h1
    rw [IM.ite_apply] at hx
    split at hx
    · obtain ⟨e1, e2⟩ := pure_eq_ok hx
      subst e1 e2
      simp only [TVal.packages, List.mem_singleton] at hp
      subst hp
      exact .inr g
    · obtain ⟨e1, e2⟩ := pure_eq_ok hx
      subst e1
      exact .inl hp

theorem sourced_trivial {h addr} {v : TVal} (hq : ∀ k, qualifyData h addr v k = (.ok (v, false), k)) :
    Sourced v.packages (fun r : TVal × Bool => r.1.packages) (qualifyData h addr v) := by
  intro i r j hx pk hp
  rw [hq] at hx
  simp only [Prod.mk.injEq, Outcome.ok.injEq] at hx
  obtain ⟨rfl, rfl⟩ := hx
  exact .inl hp

mutual
theorem sourced_qualifyData (h : Heap) : ∀ (addr : Bool) (v : TVal), v.noSpecs = true →
    Sourced v.packages (fun r : TVal × Bool => r.1.packages) (qualifyData h addr v)
  | addr, .iface acc v, hs => by
    by_cases hv : v.isConv = true
    · cases v <;> simp only [TVal.isConv, Bool.false_eq_true] at hv
      case typeName | reflectType | goType => rw [qualifyData]; exact sourced_converted
      case goObject o =>
        intro i r j hx pk hp
        rw [qualifyData] at hx
        obtain ⟨sm, i1, h1, hx⟩ := IM.bind_eq_ok hx
        exact sourced_object _ _ _ hx pk hp
      case goPackage g =>
        intro i r j hx pk hp
        rw [qualifyData] at hx
        obtain ⟨sm, i1, h1, hx⟩ := IM.bind_eq_ok hx
        obtain ⟨n, i2, h2, hx⟩ := IM.bind_eq_ok hx
        have hn := registerPackage_named h2
        rw [IM.ite_apply] at hx
        split at hx
        · obtain ⟨e1, e2⟩ := pure_eq_ok hx
          subst e1 e2
          simp only [TVal.packages, List.mem_singleton] at hp
          subst hp
          exact .inr (.inr hn)
        · obtain ⟨e1, e2⟩ := pure_eq_ok hx
          subst e1
          exact .inl hp
    · have hv : v.isConv = false := by simpa using hv
      intro i r j hx pk hp
      rw [qualifyData_iface _ _ _ hv] at hx
      obtain ⟨⟨v', c⟩, i1, h1, hx⟩ := IM.bind_eq_ok hx
      obtain ⟨e1, e2⟩ := pure_eq_ok hx
      subst e1 e2
      have hs' : v.noSpecs = true := by simpa [TVal.noSpecs] using hs
      have hv' : v'.isConv = false := (qualifyData_post h false v h1).conv.trans hv
      dsimp only at hp
      rw [packages_iface _ hv'] at hp
      rw [packages_iface _ hv]
      exact sourced_qualifyData h false v hs' _ _ _ h1 pk hp
  | addr, .package p, hs => by
    intro i r j hx pk hp
    rw [qualifyData] at hx
    obtain ⟨n, i1, h1, hx⟩ := IM.bind_eq_ok hx
    have hn := registerPackage_named h1
    rw [IM.ite_apply] at hx
    split at hx
    · obtain ⟨e1, e2⟩ := pure_eq_ok hx
      subst e1 e2
      simp only [TVal.packages, List.mem_singleton] at hp
      subst hp
      exact .inr (.inr hn)
    · obtain ⟨e1, e2⟩ := pure_eq_ok hx
      subst e1
      exact .inl hp
  | addr, .symbol s, hs => by
    intro i r j hx pk hp
    rw [qualifyData] at hx
    obtain ⟨s', i1, h1, hx⟩ := IM.bind_eq_ok hx
    have g := ensureImported_settled h1
    obtain ⟨e1, e2⟩ := pure_eq_ok hx
    subst e1 e2
    simp only [TVal.packages, List.mem_singleton] at hp
    subst hp
    exact .inr g
  | addr, .mref m, hs => by
    intro i r j hx pk hp
    rw [qualifyData] at hx
    obtain ⟨s', i1, h1, hx⟩ := IM.bind_eq_ok hx
    have g := ensureImported_settled h1
    obtain ⟨e1, e2⟩ := pure_eq_ok hx
    subst e1 e2
    simp only [TVal.packages, List.mem_singleton] at hp
    subst hp
    exact .inr g
  | addr, .signature s, hs => by
    intro i r j hx pk hp
    rw [qualifyData] at hx
    obtain ⟨⟨s', c⟩, i1, h1, hx⟩ := IM.bind_eq_ok hx
    obtain ⟨g1, g2⟩ := qualifySignature_settled s h1
    obtain ⟨e1, e2⟩ := pure_eq_ok hx
    subst e1 e2
    exact .inr (SigSettled.written g2 (by simpa [TVal.packages] using hp))
  | addr, .spec _, hs => by simp [TVal.noSpecs] at hs
  | addr, .specCopy _ _, hs => by simp [TVal.noSpecs] at hs
  | addr, .embed e, hs => by
    intro i r j hx pk hp
    rw [qualifyData] at hx
    obtain ⟨⟨e', c⟩, i1, h1, hx⟩ := IM.bind_eq_ok hx
    obtain ⟨e1, e2⟩ := pure_eq_ok hx
    subst e1 e2
    rw [InterfaceEmbed.qualify] at h1
    obtain ⟨s, i2, h2, h1⟩ := IM.bind_eq_ok h1
    obtain ⟨e1, e2⟩ := pure_eq_ok h1
    simp only [Prod.mk.injEq] at e1
    obtain ⟨e1, e3⟩ := e1
    subst e1 e2 e3
    have g := ensureImported_settled h2
    simp only [TVal.packages, List.mem_singleton] at hp
    subst hp
    exact .inr g
  | addr, .method m, hs => by
    intro i r j hx pk hp
    rw [qualifyData] at hx
    obtain ⟨⟨e', c⟩, i1, h1, hx⟩ := IM.bind_eq_ok hx
    obtain ⟨e1, e2⟩ := pure_eq_ok hx
    subst e1 e2
    rw [InterfaceMethod.qualify] at h1
    obtain ⟨⟨s, c'⟩, i2, h2, h1⟩ := IM.bind_eq_ok h1
    obtain ⟨e1, e2⟩ := pure_eq_ok h1
    simp only [Prod.mk.injEq] at e1
    obtain ⟨e1, e3⟩ := e1
    subst e1 e2 e3
    obtain ⟨g1, g2⟩ := qualifySignature_settled _ h2
    exact .inr (SigSettled.written g2 (by simpa [TVal.packages] using hp))
  | addr, .ptr v, hs => by
    intro i r j hx pk hp
    rw [qualifyData] at hx
    obtain ⟨⟨v', c⟩, i1, h1, hx⟩ := IM.bind_eq_ok hx
    obtain ⟨e1, e2⟩ := pure_eq_ok hx
    subst e1 e2
    simp only [TVal.packages] at hp ⊢
    refine sourced_qualifyData h true v (by simpa [TVal.noSpecs] using hs) _ _ _ h1 pk ?_
    cases c
    · exact hp
    · exact packages_inIface hp
  | addr, .struct fs, hs => by
    intro i r j hx pk hp
    rw [qualifyData] at hx
    obtain ⟨⟨v', c⟩, i1, h1, hx⟩ := IM.bind_eq_ok hx
    obtain ⟨e1, e2⟩ := pure_eq_ok hx
    subst e1 e2
    simp only [TVal.packages] at hp ⊢
    exact sourced_qualifyDataFields h addr _ _ fs (by simpa [TVal.noSpecs] using hs) _ _ _ h1 pk hp
  | addr, .array vs, hs => by
    intro i r j hx pk hp
    rw [qualifyData] at hx
    obtain ⟨⟨v', c⟩, i1, h1, hx⟩ := IM.bind_eq_ok hx
    obtain ⟨e1, e2⟩ := pure_eq_ok hx
    subst e1 e2
    simp only [TVal.packages] at hp ⊢
    exact sourced_qualifyDataElems h addr _ _ vs (by simpa [TVal.noSpecs] using hs) _ _ _ h1 pk hp
  | addr, .slice vs, hs => by
    intro i r j hx pk hp
    rw [qualifyData] at hx
    obtain ⟨⟨v', c⟩, i1, h1, hx⟩ := IM.bind_eq_ok hx
    obtain ⟨e1, e2⟩ := pure_eq_ok hx
    subst e1 e2
    simp only [TVal.packages] at hp ⊢
    exact sourced_qualifyDataElems h true _ _ vs (by simpa [TVal.noSpecs] using hs) _ _ _ h1 pk hp
  | addr, .map es, hs => by
    intro i r j hx pk hp
    rw [qualifyData] at hx
    obtain ⟨⟨es', c⟩, i1, h1, hx⟩ := IM.bind_eq_ok hx
    have ih := sourced_qualifyDataEntries h es (by simpa [TVal.noSpecs] using hs) _ _ _ h1
    dsimp only at hx ih
    rw [IM.ite_apply] at hx
    split at hx
    · obtain ⟨e1, e2⟩ := pure_eq_ok hx
      subst e1 e2
      simp only [TVal.packages, mem_packagesEntries] at hp
      rw [TVal.packages]
      obtain ⟨e, he, hp⟩ := hp
      have := setMapIndex_foldl (P := fun v => ∀ pk ∈ v.packages, pk ∈ packagesEntries es')
        (Q := fun v => ∀ pk ∈ v.packages, pk ∈ packagesEntries es') es' []
        (fun e he => ⟨fun pk hp => mem_packagesEntries.2 ⟨e, he, .inl hp⟩,
          fun pk hp => mem_packagesEntries.2 ⟨e, he, .inr hp⟩⟩) (by simp) e he
      rcases hp with hp | hp
      · exact ih pk (this.1 pk hp)
      · exact ih pk (this.2 pk hp)
    · obtain ⟨e1, e2⟩ := pure_eq_ok hx
      subst e1
      exact .inl hp
  | addr, .scalar _, hs => sourced_trivial fun k => by rw [qualifyData] <;> simp
  | addr, .imports, hs => sourced_trivial fun k => by rw [qualifyData] <;> simp
  | addr, .typeName _, hs => sourced_trivial fun k => by rw [qualifyData] <;> simp
  | addr, .reflectType _, hs => sourced_trivial fun k => by rw [qualifyData] <;> simp
  | addr, .goType _, hs => sourced_trivial fun k => by rw [qualifyData] <;> simp
  | addr, .goObject _, hs => sourced_trivial fun k => by rw [qualifyData] <;> simp
  | addr, .goPackage _, hs => sourced_trivial fun k => by rw [qualifyData] <;> simp
theorem sourced_qualifyDataFields (h : Heap) (addr : Bool) : ∀ (changed hidden : Bool)
    (fs : List (Bool × TVal)), noSpecsFields fs = true →
    Sourced (packagesFields fs) (fun r : List (Bool × TVal) × Bool => packagesFields r.1)
      (qualifyDataFields h addr changed hidden fs)
  | changed, hidden, [], _ => by
    rw [qualifyDataFields]
    exact .pure fun _ => id
  | changed, hidden, (e, v) :: fs, hs => by
    intro i r j hx pk hpk
    rw [qualifyDataFields] at hx
    simp only [noSpecsFields, Bool.and_eq_true] at hs
    by_cases he : (!e && !addr) = true
    · rw [if_pos he] at hx; simp at hx
    · rw [if_neg he] at hx
      obtain ⟨⟨v', c⟩, i1, h1, hx⟩ := IM.bind_eq_ok hx
      dsimp only at hx
      by_cases hp : ((changed && !e) || (!changed && c && (hidden || !e)) || (c && v.ifacePtr)) = true
      · rw [if_pos hp] at hx; simp at hx
      · rw [if_neg hp] at hx
        obtain ⟨⟨fs', c'⟩, i2, h2, hx⟩ := IM.bind_eq_ok hx
        obtain ⟨e1, e2⟩ := pure_eq_ok hx
        subst e1 e2
        have hext := (runs_qualifyDataFields h addr _ _ fs).ext h2
        simp only [packagesFields, List.mem_append] at hpk ⊢
        rcases hpk with hpk | hpk
        · exact (sourced_qualifyData h addr v hs.1 _ _ _ h1 pk hpk).imp .inl hext.qpkg
        · exact (sourced_qualifyDataFields h addr _ _ fs hs.2 _ _ _ h2 pk hpk).imp .inr id
theorem sourced_qualifyDataElems (h : Heap) (addr sl : Bool) : ∀ (changed : Bool)
    (vs : List TVal), noSpecsElems vs = true →
    Sourced (packagesElems vs) (fun r : List TVal × Bool => packagesElems r.1)
      (qualifyDataElems h addr sl changed vs)
  | changed, [], _ => by
    rw [qualifyDataElems]
    exact .pure fun _ => id
  | changed, v :: vs, hs => by
    intro i r j hx pk hpk
    rw [qualifyDataElems] at hx
    simp only [noSpecsElems, Bool.and_eq_true] at hs
    obtain ⟨⟨v', c⟩, i1, h1, hx⟩ := IM.bind_eq_ok hx
    dsimp only at hx
    by_cases hp : ((!changed && c && !sl) || (c && v.ifacePtr)) = true
    · rw [if_pos hp] at hx; simp at hx
    · rw [if_neg hp] at hx
      obtain ⟨⟨fs', c'⟩, i2, h2, hx⟩ := IM.bind_eq_ok hx
      obtain ⟨e1, e2⟩ := pure_eq_ok hx
      subst e1 e2
      have hext := (runs_qualifyDataElems h addr _ _ vs).ext h2
      simp only [packagesElems, List.mem_append] at hpk ⊢
      rcases hpk with hpk | hpk
      · exact (sourced_qualifyData h addr v hs.1 _ _ _ h1 pk hpk).imp .inl hext.qpkg
      · exact (sourced_qualifyDataElems h addr _ _ vs hs.2 _ _ _ h2 pk hpk).imp .inr id
theorem sourced_qualifyDataEntries (h : Heap) : ∀ (es : List (TVal × TVal)), noSpecsEntries es = true →
    Sourced (packagesEntries es) (fun r : List (TVal × TVal) × Bool => packagesEntries r.1)
      (qualifyDataEntries h es)
  | [], _ => by
    rw [qualifyDataEntries]
    exact .pure fun _ => id
  | (k, v) :: es, hs => by
    intro i r j hx pk hpk
    rw [qualifyDataEntries] at hx
    simp only [noSpecsEntries, Bool.and_eq_true] at hs
    obtain ⟨⟨k', ck⟩, i1, h1, hx⟩ := IM.bind_eq_ok hx
    obtain ⟨⟨v', cv⟩, i2, h2, hx⟩ := IM.bind_eq_ok hx
    obtain ⟨-, hx⟩ := IM.ite_panic_eq_ok hx
    obtain ⟨⟨es', c⟩, i3, h3, hx⟩ := IM.bind_eq_ok hx
    obtain ⟨e1, e2⟩ := pure_eq_ok hx
    subst e1 e2
    have ext3 := (runs_qualifyDataEntries h es).ext h3
    have ext2 := (ext_qualifyData h2).trans ext3
    simp only [packagesEntries, List.mem_append] at hpk ⊢
    rcases hpk with (hpk | hpk) | hpk
    · exact (sourced_qualifyData h false k hs.1.1 _ _ _ h1 pk hpk).imp (.inl ∘ .inl) ext2.qpkg
    · exact (sourced_qualifyData h false v hs.1.2 _ _ _ h2 pk hpk).imp (.inl ∘ .inr) ext3.qpkg
    · exact (sourced_qualifyDataEntries h es hs.2 _ _ _ h3 pk hpk).imp .inr id
end

theorem sourced_qualifyTemplateData {h : Heap} {v : TVal} (hs : v.noSpecs = true) :
    Sourced (TVal.iface acceptsAll v).packages (fun v' => (TVal.iface acceptsAll v').packages)
      (qualifyTemplateData h v) := by
  intro i v' j hx pk hp
  rw [qualifyTemplateData] at hx
  obtain ⟨⟨r, c⟩, i1, h1, hx⟩ := IM.bind_eq_ok hx
  obtain ⟨w, hw⟩ := qualifyData_iface_shape h1
  dsimp only at hw hx
  subst hw
  obtain ⟨e1, e2⟩ := pure_eq_ok hx
  subst e1 e2
  exact sourced_qualifyData h true _ (by simpa [TVal.noSpecs] using hs) _ _ _ h1 pk hp

/-! ### Arguments -/

/-- What an argument carries itself after qualification. -/
theorem ArgSettled.packages {h : Heap} {i : Imports} {a : Arg} {pk : Package} (ha : ArgSettled h i a)
    (hp : pk ∈ a.packages) : QPkg i pk := by
  cases a <;> simp only [ArgSettled, Arg.packages, List.mem_singleton, List.not_mem_nil] at ha hp
  case package | packagePtr => subst hp; exact .inr ha
  case symbol | mref | mrefPtr => subst hp; exact ha
  case sigPtr => exact ha.written hp
  case typeName => exact ha.written hp
  case goObject o s =>
    obtain ⟨m, h1, h2⟩ := ha
    rw [argMethod] at h1
    rw [objectRefs_ok h1, List.mem_singleton] at hp
    subst hp
    exact h2

theorem qualifyArgList_sourced {h : Heap} : ∀ {l l' : List Arg} {i j : Imports} {o},
    qualifyArgList h l i = (o, l', j) → ∀ a ∈ l', a ∈ l ∨ ∀ pk ∈ a.packages, QPkg j pk
  | [], l', i, j, o, hx => by
    simp only [qualifyArgList, Prod.mk.injEq] at hx
    obtain ⟨-, rfl, -⟩ := hx
    simp
  | a :: l, l', i, j, o, hx => by
    rw [qualifyArgList] at hx
    rcases ha : qualifyArg h a i with ⟨a' | _ | _, i1⟩ <;> rw [ha] at hx
    · rcases hl : qualifyArgList h l i1 with ⟨o, l1, i2⟩
      simp only [hl, Prod.mk.injEq] at hx
      obtain ⟨rfl, rfl, rfl⟩ := hx
      have ih := qualifyArgList_sourced hl
      have hev := (evolves_qualifyArgList h l i1).1
      rw [hl] at hev
      intro b hb
      rcases List.mem_cons.1 hb with rfl | hb
      · exact .inr fun pk hpk => hev.ext.qpkg ((qualifyArg_settled ha).packages hpk)
      · exact (ih b hb).imp (by simp +contextual) id
    · simp only [Prod.mk.injEq] at hx
      obtain ⟨rfl, rfl, rfl⟩ := hx
      exact fun b hb => .inl hb
    · simp only [Prod.mk.injEq] at hx
      obtain ⟨rfl, rfl, rfl⟩ := hx
      exact fun b hb => .inl hb

theorem QStep.sourced {h i h' i'} (a : QStep h i h' i') (hn : NoSpecData h) {pk : Package}
    (hm : Mentioned h' pk) : Mentioned h pk ∨ QPkg i' pk := by
  cases a with
  | imports _ => exact .inl hm
  | @type p ts u _ hp hu =>
    cases hm with
    | @type q x _ hq hw =>
      by_cases hqp : q = p
      · subst hqp
        simp only [upd_same, Option.some.injEq] at hq
        subst hq
        exact .inr ((ensureTypeImported_settled hu).written hw)
      · exact .inl (.type ((upd_ne _ _ hqp).symm.trans hq) hw)
    | file h1 => exact .inl (.file h1)
    | value h1 h2 h3 => exact .inl (.value h1 h2 h3)
    | field h1 h2 h3 => exact .inl (.field h1 h2 h3)
    | embed h1 => exact .inl (.embed h1)
    | method h1 h2 => exact .inl (.method h1 h2)
    | func h1 h2 => exact .inl (.func h1 h2)
    | arg h1 h2 h3 => exact .inl (.arg h1 h2 h3)
    | templ h1 h2 => exact .inl (.templ h1 h2)
  | @field p f t t' _ hp ht hu =>
    cases hm with
    | @field q x t1 _ hq ht1 hw =>
      by_cases hqp : q = p
      · subst hqp
        simp only [upd_same, Option.some.injEq] at hq
        subst hq
        cases ht1
        exact .inr ((ensureTypeImported_settled hu).written hw)
      · exact .inl (.field ((upd_ne _ _ hqp).symm.trans hq) ht1 hw)
    | file h1 => exact .inl (.file h1)
    | value h1 h2 h3 => exact .inl (.value h1 h2 h3)
    | type h1 h2 => exact .inl (.type h1 h2)
    | embed h1 => exact .inl (.embed h1)
    | method h1 h2 => exact .inl (.method h1 h2)
    | func h1 h2 => exact .inl (.func h1 h2)
    | arg h1 h2 h3 => exact .inl (.arg h1 h2 h3)
    | templ h1 h2 => exact .inl (.templ h1 h2)
  | @value p f t t' _ hp ht hu =>
    cases hm with
    | @value q x t1 _ hq ht1 hw =>
      by_cases hqp : q = p
      · subst hqp
        simp only [upd_same, Option.some.injEq] at hq
        subst hq
        cases ht1
        exact .inr ((ensureTypeImported_settled hu).written hw)
      · exact .inl (.value ((upd_ne _ _ hqp).symm.trans hq) ht1 hw)
    | file h1 => exact .inl (.file h1)
    | type h1 h2 => exact .inl (.type h1 h2)
    | field h1 h2 h3 => exact .inl (.field h1 h2 h3)
    | embed h1 => exact .inl (.embed h1)
    | method h1 h2 => exact .inl (.method h1 h2)
    | func h1 h2 => exact .inl (.func h1 h2)
    | arg h1 h2 h3 => exact .inl (.arg h1 h2 h3)
    | templ h1 h2 => exact .inl (.templ h1 h2)
  | @embed p e s _ hp hu =>
    cases hm with
    | @embed q x hq =>
      by_cases hqp : q = p
      · subst hqp
        simp only [upd_same, Option.some.injEq] at hq
        subst hq
        exact .inr (ensureImported_settled hu)
      · exact .inl (.embed ((upd_ne _ _ hqp).symm.trans hq))
    | file h1 => exact .inl (.file h1)
    | value h1 h2 h3 => exact .inl (.value h1 h2 h3)
    | type h1 h2 => exact .inl (.type h1 h2)
    | field h1 h2 h3 => exact .inl (.field h1 h2 h3)
    | method h1 h2 => exact .inl (.method h1 h2)
    | func h1 h2 => exact .inl (.func h1 h2)
    | arg h1 h2 h3 => exact .inl (.arg h1 h2 h3)
    | templ h1 h2 => exact .inl (.templ h1 h2)
  | @method p e s _ hp hu =>
    cases hm with
    | @method q x _ hq hw =>
      by_cases hqp : q = p
      · subst hqp
        simp only [upd_same, Option.some.injEq] at hq
        subst hq
        exact .inr ((ensureAllTypesImported_settled hu).written hw)
      · exact .inl (.method ((upd_ne _ _ hqp).symm.trans hq) hw)
    | file h1 => exact .inl (.file h1)
    | value h1 h2 h3 => exact .inl (.value h1 h2 h3)
    | type h1 h2 => exact .inl (.type h1 h2)
    | field h1 h2 h3 => exact .inl (.field h1 h2 h3)
    | embed h1 => exact .inl (.embed h1)
    | func h1 h2 => exact .inl (.func h1 h2)
    | arg h1 h2 h3 => exact .inl (.arg h1 h2 h3)
    | templ h1 h2 => exact .inl (.templ h1 h2)
  | @func p e s _ hp hu =>
    cases hm with
    | @func q x _ hq hw =>
      by_cases hqp : q = p
      · subst hqp
        simp only [upd_same, Option.some.injEq] at hq
        subst hq
        exact .inr ((ensureAllTypesImported_settled hu).written hw)
      · exact .inl (.func ((upd_ne _ _ hqp).symm.trans hq) hw)
    | file h1 => exact .inl (.file h1)
    | value h1 h2 h3 => exact .inl (.value h1 h2 h3)
    | type h1 h2 => exact .inl (.type h1 h2)
    | field h1 h2 h3 => exact .inl (.field h1 h2 h3)
    | embed h1 => exact .inl (.embed h1)
    | method h1 h2 => exact .inl (.method h1 h2)
    | arg h1 h2 h3 => exact .inl (.arg h1 h2 h3)
    | templ h1 h2 => exact .inl (.templ h1 h2)
  | @templ p e s _ hp hu =>
    cases hm with
    | @templ q x _ hq hw =>
      by_cases hqp : q = p
      · subst hqp
        simp only [upd_same, Option.some.injEq] at hq
        subst hq
        exact (sourced_qualifyTemplateData (hn _ _ hp) _ _ _ hu pk hw).imp (.templ hp) id
      · exact .inl (.templ ((upd_ne _ _ hqp).symm.trans hq) hw)
    | file h1 => exact .inl (.file h1)
    | value h1 h2 h3 => exact .inl (.value h1 h2 h3)
    | type h1 h2 => exact .inl (.type h1 h2)
    | field h1 h2 h3 => exact .inl (.field h1 h2 h3)
    | embed h1 => exact .inl (.embed h1)
    | method h1 h2 => exact .inl (.method h1 h2)
    | func h1 h2 => exact .inl (.func h1 h2)
    | arg h1 h2 h3 => exact .inl (.arg h1 h2 h3)
  | @args p l l' o _ hp hu =>
    cases hm with
    | @arg q x a _ hq ha hw =>
      by_cases hqp : q = p
      · subst hqp
        simp only [upd_same, Option.some.injEq] at hq
        subst hq
        rcases qualifyArgList_sourced hu a ha with h1 | h1
        · exact .inl (.arg hp h1 hw)
        · exact .inr (h1 pk hw)
      · exact .inl (.arg ((upd_ne _ _ hqp).symm.trans hq) ha hw)
    | file h1 => exact .inl (.file h1)
    | value h1 h2 h3 => exact .inl (.value h1 h2 h3)
    | type h1 h2 => exact .inl (.type h1 h2)
    | field h1 h2 h3 => exact .inl (.field h1 h2 h3)
    | embed h1 => exact .inl (.embed h1)
    | method h1 h2 => exact .inl (.method h1 h2)
    | func h1 h2 => exact .inl (.func h1 h2)
    | templ h1 h2 => exact .inl (.templ h1 h2)


/-- What is mentioned after a pass was mentioned before, or has the name that the imports use. -/
theorem Later.sourced {h i h' i'} (a : Later h i h' i') (hn : NoSpecData h) {pk : Package}
    (hm : Mentioned h' pk) : Mentioned h pk ∨ QPkg i' pk := by
  have := a.induct (P := fun h1 i1 => NoSpecData h1 ∧
    ∀ pk, Mentioned h1 pk → Mentioned h pk ∨ QPkg i1 pk) ?_ ?_ ⟨hn, fun pk hm => .inl hm⟩
  · exact this.2 pk hm
  · rintro h1 i1 h2 i2 s ⟨hn1, hp⟩
    refine ⟨(Later.step (.refl _ _) s).noSpecData hn1, fun pk hm => ?_⟩
    rcases s.sourced hn1 hm with hm | hm
    · exact (hp pk hm).imp id s.ext.qpkg
    · exact .inr hm
  · rintro h1 i1 files hf ⟨hn1, hp⟩
    refine ⟨hn1, fun pk hm => hp pk ?_⟩
    cases hm with
    | @file p f hp =>
      obtain ⟨f', h4, h5⟩ := files_samePackages (fun p => (hf p).symm) p f hp
      rw [← h5]
      exact .file h4
    | value h1 h2 h3 => exact .value h1 h2 h3
    | type h1 h2 => exact .type h1 h2
    | field h1 h2 h3 => exact .field h1 h2 h3
    | embed h1 => exact .embed h1
    | method h1 h2 => exact .method h1 h2
    | func h1 h2 => exact .func h1 h2
    | arg h1 h2 h3 => exact .arg h1 h2 h3
    | templ h1 h2 => exact .templ h1 h2

end Gopoet
