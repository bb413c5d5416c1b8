import Verif.Spec.Template
import Verif.Model.File
/-!
# Specification vocabulary for determinism: heaps that differ in the order of maps only

The entries of a Go map have no order; those of the lists that stand for maps in the model do. Two
heaps represent the same memory if they differ in nothing but the orders of these lists.
-/

namespace Gopoet

/-- The maps of the two Imports have the same entries. -/
structure SameTables (i j : Imports) : Prop where
  own : j.pkgPath = i.pkgPath
  byPath : ∀ p, j.importsByPath.get p = i.importsByPath.get p
  byName : ∀ n, j.pathsByName.get n = i.pathsByName.get n

/-- The lists stand for maps: no key occurs twice. -/
def Imports.Maps (i : Imports) : Prop := i.importsByPath.keys.Nodup ∧ i.pathsByName.keys.Nodup

/-- The heaps are the same except for the order of map entries, in template data and in Imports. -/
structure SameButOrder (h h1 : Heap) : Prop where
  rest : h1 = { h with files := h1.files, templs := h1.templs }
  files : ∀ p, (h.files p = none ∧ h1.files p = none) ∨ ∃ f f1, h.files p = some f ∧ h1.files p = some f1 ∧
    f1 = { f with imports := f1.imports } ∧ SameTables f.imports f1.imports
  templs : ∀ p, (h.templs p = none ∧ h1.templs p = none) ∨ ∃ t t1, h.templs p = some t ∧ h1.templs p = some t1 ∧
    t1.templ = t.templ ∧ Reordered t.data t1.data

/-- What is outside of gopoet (`fmt` and the execution of templates) does not depend on the order of
map entries: `text/template` and `fmt` print maps sorted by their keys. -/
structure OrderBlind (env : Env) : Prop where
  fmt : ∀ h h1, SameButOrder h h1 → ∀ format args, env.fmtOther h1 format args = env.fmtOther h format args
  exec : ∀ h h1, SameButOrder h h1 → ∀ t v v1, Reordered v v1 → env.exec h1 t v1 = env.exec h t v

end Gopoet
