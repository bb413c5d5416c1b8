import Verif.Proof.KnownLemmas
/-! The packages in template data after it is qualified are imported. -/

namespace Gopoet
open Imports

theorem DataDone.known {h : Heap} {i : Imports} {addr : Bool} {v : TVal} (hv : DataDone h i addr v)
    (hc : v.copyNames = []) {pk : Package} (hp : pk ∈ v.packages) : PkgKnown i pk :=
  (registers_qualifyData h addr v _ _ _ (hv h i (.refl _) (.refl _) (by simp [hc, CopiesNamed]))).2 pk hp

theorem leaves_known (h : Heap) : LeafKnown PkgKnown h where
  ext h := h.known
  leaf hs hx _ hp :=
    have hq := qualifyData_post h _ _ hx
    hq.done.known (copyNames_of_noSpecs (hq.noSpecs hs)) hp

theorem qualifyTemplateData_known {h : Heap} {v v' : TVal} {i j : Imports} (hs : v.noSpecs = true)
    (hx : qualifyTemplateData h v i = (.ok v', j)) {pk : Package}
    (hp : pk ∈ (TVal.iface acceptsAll v').packages) : PkgKnown j pk := by
  obtain ⟨h1, h2⟩ := qualifyTemplateData_done hx
  exact (registers_qualifyTemplateData h v' _ _ _ (h1.1 h j (.refl _) (.refl _)
    (by simp [copyNames_of_noSpecs (h2 hs), CopiesNamed]))).2 pk hp


end Gopoet
