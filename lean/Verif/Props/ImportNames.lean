import Verif.Spec.ImportNames
import Verif.Proof.AliasLemmas
import Verif.Props.Imports
import Verif.Model.File
/-! Property C64: the names that are given to imports can be used in Go. -/

namespace Gopoet
open Imports

/-- C64 in full: if the package names that are given are names that Go allows for imports, or left empty, then every prefix
is such a name followed by a dot. The documentation of `NewPackage` (model.go:28-41) says so of empty names: "An empty
Name field will cause an alias to be used when the package is registered with an *Imports, to ensure that the resulting
code will compile". -/
def C64_full : Prop := ∀ (own : GoString) (history : List Call),
  (∀ c ∈ history, ∀ pk ∈ c.packages, pk.name = [] ∨ isImportName pk.name = true) →
  ∀ p a, (prefixFor p ((newImportsFor own).after history)).1 = .ok a →
    a = [] ∨ ∃ n, isImportName n = true ∧ a = n ++ b! "."

theorem isIdent_eq (s : GoString) : isIdent s = (isWordName s && (keyword? s).isNone) := by
  cases s with
  | nil => rfl
  | cons b s =>
    simp only [isIdent, isWordName, List.all_cons]
    cases h : isLetterByte b
    · rfl
    · simp [isWordByte, h]

theorem isImportName_candidate (base : GoString) (k : Nat) :
    isImportName (candidate base (k + 1)) = isWordName base := by
  obtain ⟨hne, hall, -, -⟩ := decDigitsAux_spec (k + 1 + 1) (k + 1) (by omega)
  have hne : decDigits (k + 1) ≠ [] := hne
  have hd : ∀ x ∈ decDigits (k + 1), isDigitByte x = true := List.all_eq_true.1 hall
  rw [candidate]
  generalize decDigits (k + 1) = ds at hne hd
  have hlast : (base ++ ds).getLast? = some (ds.getLast hne) := by
    rw [List.getLast?_append_of_ne_nil _ hne, List.getLast?_eq_some_getLast hne]
  have hdig := hd _ (List.getLast_mem hne)
  have h1 : (base ++ ds != b! "_") = true := by
    rw [bne_iff_ne]
    intro e
    rw [e] at hlast
    rw [← Option.some.inj hlast] at hdig
    revert hdig
    decide
  have h2 : (base ++ ds != b! "init") = true := by
    rw [bne_iff_ne]
    intro e
    rw [e] at hlast
    rw [← Option.some.inj hlast] at hdig
    revert hdig
    decide
  rw [isImportName, h1, h2, isIdent_eq, keyword_digit hlast hdig]
  simp only [Option.isNone_none, Bool.and_true]
  cases base with
  | nil =>
    cases ds with
    | nil => exact absurd rfl hne
    | cons x ds =>
      have := hd x (by simp)
      simp only [List.nil_append, isWordName, Bool.and_eq_false_iff]
      left
      simp only [isDigitByte, Bool.and_eq_true, decide_eq_true_eq] at this
      simp only [isLetterByte, Bool.or_eq_false_iff, Bool.and_eq_false_iff, decide_eq_false_iff_not, beq_eq_false_iff_ne]
      refine ⟨⟨⟨by omega, by omega⟩, ?_⟩, by omega⟩
      rintro rfl
      simp at this
  | cons b base =>
    have : ds.all isWordByte = true := List.all_eq_true.2 fun x hx => by simp [isWordByte, hd x hx]
    simp [isWordName, List.all_append, this]

/-- C64, exactly: a package that is registered for the first time gets a name that Go allows if and only if the given name
(or the last element of the path, if it is empty) is such a name, or is in use already and at least a word. What is
missing from the full property: paths whose last element is not a word, see `C64_full_fails`. -/
theorem C64_name_iff_partial {i : Imports} (hi : Reachable i) {p n : GoString} (hown : p ≠ i.pkgPath)
    (hnew : p ∉ i.importedPaths) :
    (∃ q, (registerImport p n i).1 = .ok (q ++ b! ".") ∧ isImportName q = true) ↔
      let base := if n = [] then pathBase p else n
      isImportName base = true ∨ (isWordName base = true ∧ InUse i base) := by
  obtain ⟨k, -, h1, h2, h3⟩ := C04_first_free_candidate (n := n) hi hown hnew
  dsimp only
  generalize (if n = [] then pathBase p else n) = base at h1 h2 h3
  rw [h1]
  have hq : (∃ q, Outcome.ok (candidate base k ++ b! ".") = .ok (q ++ b! ".") ∧ isImportName q = true) ↔
      isImportName (candidate base k) = true := by
    constructor
    · rintro ⟨q, h4, h5⟩
      obtain rfl := List.append_cancel_right (Outcome.ok.inj h4)
      exact h5
    · exact fun h => ⟨_, rfl, h⟩
  rw [hq]
  cases k with
  | zero =>
    constructor
    · exact .inl
    · rintro (h4 | h4)
      · exact h4
      · exact absurd h4.2 h2
  | succ k =>
    rw [isImportName_candidate]
    have h4 := h3 0 (by omega)
    constructor
    · exact fun h => .inr ⟨h, h4⟩
    · rintro (h5 | h5)
      · rw [isImportName, isIdent_eq] at h5
        simp only [Bool.and_eq_true] at h5
        exact h5.1.1.1
      · exact h5.1

/-- C64: names are kept (C02), so if the names and, for those without name, the last path elements of all packages that
are used with an Imports are names that Go allows, then all prefixes are. What is missing from the full property: see
`C64_full_fails`. -/
theorem C64_names_partial {own : GoString} {history : List Call}
    (hh : ∀ c ∈ history, ∀ pk ∈ c.packages, isImportName (if pk.name = [] then pathBase pk.importPath else pk.name) = true)
    {p a : GoString} (ha : (prefixFor p ((newImportsFor own).after history)).1 = .ok a) :
    a = [] ∨ ∃ n, isImportName n = true ∧ a = n ++ b! "." := by
  have key : ∀ {P : Package → Prop} {i j : Imports}, Evolves P i j → (∀ pk, P pk → isImportName (baseName pk) = true) →
      (∀ p d, i.importsByPath.get p = some d → isImportName d.packageName = true) →
      ∀ p d, j.importsByPath.get p = some d → isImportName d.packageName = true := by
    intro P i j he hP h0
    induction he with
    | refl => exact h0
    | step he hs ih =>
      intro p d hd
      obtain ⟨pkg, q, hp, -, -, ⟨k, rfl, -, -⟩, rfl⟩ := hs
      simp only [Imports.add, GoMap.get_set] at hd
      split at hd
      · cases hd
        dsimp only
        cases k with
        | zero => exact hP pkg hp
        | succ k =>
          rw [isImportName_candidate]
          have := hP pkg hp
          rw [isImportName, isIdent_eq] at this
          simp only [Bool.and_eq_true] at this
          exact this.1.1.1
      · exact ih p d hd
  have hall := key (evolves_after history (newImportsFor own)) (fun pk ⟨c, hc, hpk⟩ => hh c hc pk hpk)
    (by intro p d hd; simp [newImportsFor] at hd)
  rw [prefixFor, prefixForPackage] at ha
  split at ha
  · cases ha; exact .inl rfl
  · split at ha
    · rename_i ex hex
      cases ha
      exact .inr ⟨_, hall p ex hex, rfl⟩
    · simp at ha

/-! ### Examples -/

/-- C64 fails: the alias that is made for a path such as gopkg.in/yaml.v2 is its last element, which is no identifier.
The import statement reads `import yaml.v2 "gopkg.in/yaml.v2"`, which is no Go. -/
theorem C64_full_fails : ¬ C64_full := by
  intro hall
  rcases hall (b! "x/p") [.registerImport (b! "gopkg.in/yaml.v2") []] (by decide) (b! "gopkg.in/yaml.v2")
    (b! "yaml.v2.") (by decide) with h | ⟨n, h1, h2⟩
  · cases h
  · obtain rfl : b! "yaml.v2" = n := List.append_cancel_right (bs := b! ".") h2
    revert h1
    decide

example : ((newImportsFor (b! "x/p")).after [.registerImport (b! "gopkg.in/yaml.v2") []]).importSpecs.map
    (ImportSpec.statement fun _ => true) = [b! "import yaml.v2 \"gopkg.in/yaml.v2\"\n"] := by
  decide

/-- A path can also end in a keyword; once the keyword is taken, the next such path gets a proper name. -/
example : ((newImportsFor (b! "x/p")).after [.registerImport (b! "x/type") [], .registerImport (b! "y/type") []]).importSpecs.map
    (ImportSpec.statement fun _ => true) = [b! "import type \"x/type\"\n", b! "import type1 \"y/type\"\n"] := by
  decide

/-- The theorem applies to three packages, two of which have the same name. -/
example : (registerImport (b! "z/init") [] ((newImportsFor (b! "x/p")).after
      [.registerImport (b! "x/q") (b! "q"), .registerImport (b! "y/q") []])).1 = .ok (b! "init.") ∧
    ∀ p a, (prefixFor p ((newImportsFor (b! "x/p")).after [.registerImport (b! "x/q") (b! "q"), .registerImport (b! "y/q") []])).1
      = .ok a → a = [] ∨ ∃ n, isImportName n = true ∧ a = n ++ b! "." :=
  ⟨by decide, fun _ _ => C64_names_partial (by decide)⟩

end Gopoet
