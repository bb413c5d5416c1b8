import Verif.Proof.ProgramSound
import Verif.Proof.DataPaths
/-! The empty path is not imported, if no package is handed over that has it. -/

namespace Gopoet
open Imports

/-- No package with empty path can be registered: only symbols that belong to no package have it. -/
structure NoEmpty (h : Heap) (i : Imports) : Prop where
  mentioned : ∀ pk, Mentioned h pk → pk.importPath = [] → pk = ⟨[], []⟩
  files : ∀ p f, h.files p = some f → f.package.importPath ≠ []
  args : ∀ p l, h.args p = some l → ∀ a ∈ l, ∀ pk ∈ a.handed, pk.importPath ≠ []
  templs : ∀ p t, h.templs p = some t → t.data.Plain
  own : i.pkgPath ≠ []
  absent : i.importsByPath.get [] = none

theorem qualifySymOrRef_handed {o : Arg} {s : SymbolOrMethodRef} {a' : Arg} {i j : Imports}
    (hx : qualifySymOrRef o s i = (.ok a', j)) : ∀ pk ∈ a'.handed, pk ∈ o.handed := by
  cases s with
  | symbol s =>
    obtain ⟨s', i', h1, h2⟩ := IM.bind_eq_ok hx
    cases h2
    exact fun _ h => nomatch h
  | method m =>
    obtain ⟨s', i', h1, h2⟩ := IM.bind_eq_ok hx
    split at h2 <;> cases h2
    · exact fun _ h => nomatch h
    · exact fun _ h => h

theorem qualifyArg_handed {h : Heap} {a a' : Arg} {i j : Imports} (hx : qualifyArg h a i = (.ok a', j))
    (ha : ∀ pk ∈ a.handed, pk.importPath ≠ []) : ∀ pk ∈ a'.handed, pk.importPath ≠ [] := by
  cases a <;> rw [qualifyArg] at hx
  case package pk | packagePtr pk =>
    obtain ⟨p, i', h1, h2⟩ := IM.bind_eq_ok hx
    split at h2 <;> cases h2
    · intro _ hp
      cases List.mem_singleton.1 hp
      exact ha pk (by simp [Arg.handed])
    · exact ha
  case mref | mrefPtr => exact fun pk hp => ha pk (qualifySymOrRef_handed hx pk hp)
  case value | typeSpec | ifaceMethod | func | goObject =>
    obtain ⟨p, i', h1, h2⟩ := IM.bind_eq_ok hx
    exact fun pk hp => ha pk (qualifySymOrRef_handed h2 pk hp)
  case symbol | symbolPtr | sig | sigPtr | typeName =>
    obtain ⟨p, i', h1, h2⟩ := IM.bind_eq_ok hx
    cases h2
    exact fun _ h => nomatch h
  case reflectType | goType | goPackage =>
    obtain ⟨p, i', h1, h2⟩ := IM.bind_eq_ok hx
    obtain ⟨p', i'', h3, h4⟩ := IM.bind_eq_ok h2
    cases h4
    exact fun _ h => nomatch h
  all_goals first
    | (cases hx; exact ha)
    | (intros; simp_all)

theorem qualifyArgList_handed {h : Heap} : ∀ {l l' : List Arg} {i j : Imports} {o}, qualifyArgList h l i = (o, l', j) →
    (∀ a ∈ l, ∀ pk ∈ a.handed, pk.importPath ≠ []) → ∀ a ∈ l', ∀ pk ∈ a.handed, pk.importPath ≠ []
  | [], _, _, _, _, hx, _ => by cases hx; exact fun _ h => nomatch h
  | a :: l, l', i, j, o, hx, ha => by
    rw [qualifyArgList] at hx
    rcases hq : qualifyArg h a i with ⟨_ | _ | _, i'⟩ <;> rw [hq] at hx
    · rename_i a'
      rcases hl : qualifyArgList h l i' with ⟨o1, l1, i1⟩
      simp only [hl, Prod.mk.injEq] at hx
      obtain ⟨rfl, rfl, rfl⟩ := hx
      intro b hb
      rcases List.mem_cons.1 hb with rfl | hb
      · exact qualifyArg_handed hq (ha a (.head _))
      · exact qualifyArgList_handed hl (fun b hb => ha b (.tail _ hb)) b hb
    · cases hx; exact ha
    · cases hx; exact ha

theorem TVal.Plain.qualified {h : Heap} {v w : TVal} {i j : Imports} (k : v.Plain) (hq : qualifyTemplateData h v i = (.ok w, j)) : w.Plain := by
  obtain ⟨h1, h2⟩ := qualifyTemplateData_paths k.noSpecs k.valid hq
  have h3 := ready_qualifyTemplateData (k.ready h) hq
  refine ⟨h2, h3.valid, h3.settable, h3.flatPtrs, fun pk hp => ?_⟩
  obtain ⟨pk', h4, h5⟩ := h1 pk hp
  rw [h5]
  exact k.paths pk' h4

theorem NoEmpty.step {h i h' i'} (k : NoEmpty h i) (a : QStep h i h' i') : NoEmpty h' i' := by
  have hev := a.named
  have hown : i'.pkgPath ≠ [] := by rw [hev.ext.own]; exact k.own
  have habs : i'.importsByPath.get [] = none := by
    by_contra hne
    rcases hev.paths [] hne with h1 | ⟨-, pk, ⟨h1, h2⟩, h3⟩
    · exact h1 k.absent
    · have := k.mentioned pk h1 h3
      cases h2 this with
      | file h4 => exact k.files _ _ h4 h3
      | arg h4 h5 h6 => exact k.args _ _ h4 _ h5 _ h6 h3
      | templ h4 h5 => exact (k.templs _ _ h4).paths _ h5 h3
  have hfiles := QSteps.files a.steps
  have htempl : ∀ p t, h'.templs p = some t → t.data.Plain := by
    cases a with
    | templ hp hq => exact upd_at (P := fun _ (t : Templ) => t.data.Plain) k.templs ((k.templs _ _ hp).qualified hq)
    | _ => exact k.templs
  refine ⟨?_, by rw [hfiles]; exact k.files, ?_, htempl, hown, habs⟩
  · intro pk hm hp
    rcases a.mentioned hm with h1 | (h1 | h1 | h1) | ⟨-, h1⟩
    · exact k.mentioned pk h1 hp
    · exact h1
    · exact absurd (h1.symm.trans hp) hown
    · rw [hp] at h1; exact absurd habs h1
    · exact absurd (fun p t ht => (k.templs p t ht).noSpecs) h1
  · cases a with
    | args hp hq =>
      exact upd_at (P := fun _ (l : List Arg) => ∀ a ∈ l, ∀ pk ∈ a.handed, pk.importPath ≠ []) k.args
        (qualifyArgList_handed hq (k.args _ _ hp))
    | _ => exact k.args

theorem NoEmpty.steps {h i h' i'} (k : NoEmpty h i) (a : QSteps h i h' i') : NoEmpty h' i' := by
  induction a with
  | refl => exact k
  | step _ s ih => exact ih.step s

/-- Then a file that is written does not import it. -/
theorem NoEmpty.qualified {fuel : Nat} {p : Ptr} {h h' : Heap} {f f' : GoFile} (hf : h.files p = some f)
    (k : NoEmpty h f.imports) (hx : qualifyFile fuel p h = (.ok (), h')) (hf' : h'.files p = some f') :
    [] ∉ f'.imports.importedPaths := by
  rw [qualifyFile] at hx
  simp only [hf] at hx
  have hs := steps_fileElems fuel f.elements h f.imports
  rcases hq : QM.forEach (FileElem.qualify fuel) f.elements h f.imports with ⟨o, h1, i1⟩
  rw [hq] at hx hs
  simp only [Prod.mk.injEq] at hx
  obtain ⟨rfl, rfl⟩ := hx
  have k' := k.steps hs
  simp only [upd_same, Option.some.injEq] at hf'
  subst hf'
  exact fun hm => (mem_importPaths _ _).1 hm k'.absent

theorem NoEmpty.render {env : Env} {fuel : Nat} {p : Ptr} {h h' : Heap} {f f' : GoFile} {text : GoString} (hf : h.files p = some f)
    (k : NoEmpty h f.imports) (hr : renderFile env fuel p h = (.ok text, h')) (hf' : h'.files p = some f') :
    [] ∉ f'.imports.importedPaths := k.qualified hf (qualifyFile_of_renderFile hr) hf'

/-! ### Programs -/

/-- A file of a sensible program does not import the empty path. -/
theorem build_noEmpty {cs : List BuildCall} {h : Heap} (hb : build cs {} = .ok h) (ho : InOrder cs) (hs : Sensible cs)
    {i : Imports} (hown : i.pkgPath ≠ []) (habs : i.importsByPath.get [] = none) : NoEmpty h i := by
  obtain ⟨-, -, h1, h2⟩ := build_sound hb ho hs
  refine ⟨?_, h2, ?_, h1, hown, habs⟩
  · intro pk hm hp
    obtain ⟨c, h3, h4⟩ := build_mentioned hb hm
    exact hs.paths c h3 pk h4 hp
  · intro p l hl a ha
    rcases build_args hb hl ha with ⟨t, rfl⟩ | ⟨c, h3, h4⟩
    · exact fun _ h => nomatch h
    · exact hs.handed c h3 a h4

end Gopoet
