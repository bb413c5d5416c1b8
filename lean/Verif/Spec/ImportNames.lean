import Verif.Spec.Lexer
/-!
# Specification vocabulary: names that Go accepts for imports
-/

namespace Gopoet

/-- A word: a letter followed by letters and digits. It can be a keyword. -/
def isWordName : GoString → Bool
  | [] => false
  | b :: s => isLetterByte b && s.all isWordByte

/-- What can be the name of an import that code refers to ("Import declarations" in the language specification): an
identifier, but not the blank one. `init` can only be declared as a function ("Package initialization"). -/
def isImportName (s : GoString) : Bool := isIdent s && s != b! "_" && s != b! "init"

end Gopoet
