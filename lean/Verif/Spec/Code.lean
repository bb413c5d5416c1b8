import Verif.Model.Code
import Verif.Spec.Imports
/-!
# Specification vocabulary for code blocks: call sequences, and what reference arguments stand for
-/

namespace Gopoet

/-- A call that adds to a code block. -/
inductive CodeOp where
  | print (text : GoString)
  | println (text : GoString)
  | printf (format : GoString) (args : List Arg)
  | printlnf (format : GoString) (args : List Arg)
  | renderCode (templ : Nat) (data : TVal)
  | addCode (code : CodeBlock)

/-- The block and the heap after the call. -/
def CodeOp.exec (st : CodeBlock × Heap) : CodeOp → CodeBlock × Heap
  | .print text => st.1.print text st.2
  | .println text => st.1.println text st.2
  | .printf format args => st.1.printf format args st.2
  | .printlnf format args => st.1.printlnf format args st.2
  | .renderCode t data => st.1.renderCode t data st.2
  | .addCode code => (st.1.addCode code, st.2)

/-- The text that the call stands for, at the time of rendering: `Print` and `Println` give their
text as it is, `Printf` what `fmt` makes of it, `AddCode` that of the block added. A template
fails with a panic. -/
def CodeOp.means (env : Env) (h : Heap) : CodeOp → Outcome GoString
  | .print text => .ok text
  | .println text => .ok (text ++ b! "\n")
  | .printf format args => .ok (fprintf env h format args)
  | .printlnf format args => .ok (fprintf env h (format ++ b! "\n") args)
  | .renderCode t data =>
    match env.exec h t data with
    | some s => .ok s
    | none => .panic
  | .addCode code => codeText env h code

/-- What a reference argument stands for. -/
inductive Reference where
  | package (p : Package)
  | symbol (s : Symbol)
  | method (m : MethodReference)
  | type (t : TypeName)

/-- What each kind of argument stands for: itself, or the element that the spec declares in its
file, or what the conversions from go/types and reflect give (C23–C25). -/
inductive Denotes (h : Heap) : Arg → Reference → Prop
  | package (p) : Denotes h (.package p) (.package p)
  | packagePtr (p) : Denotes h (.packagePtr p) (.package p)
  | symbol (s) : Denotes h (.symbol s) (.symbol s)
  | symbolPtr (s) : Denotes h (.symbolPtr s) (.symbol s)
  | mref (m) : Denotes h (.mref m) (.method m)
  | mrefPtr (m) : Denotes h (.mrefPtr m) (.method m)
  | typeName (t) : Denotes h (.typeName t) (.type t)
  | value {p c n f file} : h.values p = some c → c.names = [n] → c.parent = some f →
      h.files f = some file →
      Denotes h (.value p) (.symbol ⟨⟨file.imports.pkgPath, file.packageName⟩, n⟩)
  | typeSpec {p t f file} : h.types p = some t → t.name ≠ [] → t.parent = some f →
      h.files f = some file →
      Denotes h (.typeSpec p) (.symbol ⟨⟨file.imports.pkgPath, file.packageName⟩, t.name⟩)
  | func {p fn f file} : h.funcs p = some fn → fn.receiver = none → fn.parent = some f →
      h.files f = some file →
      Denotes h (.func p) (.symbol ⟨⟨file.imports.pkgPath, file.packageName⟩, fn.name⟩)
  | method {p fn r f file} : h.funcs p = some fn → fn.receiver = some r → fn.parent = some f →
      h.files f = some file →
      Denotes h (.func p) (.method ⟨⟨⟨file.imports.pkgPath, file.packageName⟩, r.type⟩, fn.name⟩)
  | ifaceMethod {p m tp t f file} : h.methods p = some m → m.parent = some tp →
      h.types tp = some t → t.name ≠ [] → t.parent = some f → h.files f = some file →
      Denotes h (.ifaceMethod p)
        (.method ⟨⟨⟨file.imports.pkgPath, file.packageName⟩, t.name⟩, m.name⟩)
  | reflectType {t t' text} : typeNameForReflectType t = .ok t' →
      Denotes h (.reflectType t text) (.type t')
  | goType {t t' text} : typeNameForGoType t = .ok t' → Denotes h (.goType t text) (.type t')
  | goSymbol {o s text} : symbolForGoObject o = .ok (.symbol s) →
      Denotes h (.goObject o text) (.symbol s)
  | goMethod {o m text} : symbolForGoObject o = .ok (.method m) →
      Denotes h (.goObject o text) (.method m)
  | goPackage (p text) : Denotes h (.goPackage p text) (.package ⟨p.path, p.name⟩)

/-- The prefix that the imports give for a path (empty if they know none). -/
def prefixOf (i : Imports) (path : GoString) : GoString :=
  match (Imports.prefixFor path i).1 with
  | .ok a => a
  | _ => []

/-- A symbol as it is written in a file with the given imports: prefix and name; predeclared
names have no prefix. -/
def writtenSymbol (i : Imports) (s : Symbol) : GoString :=
  if s.package = ⟨[], []⟩ then s.name else prefixOf i s.package.importPath ++ s.name

/-- A reference as it must be written in a file with the given imports; `tbl` is the table of
printable characters. -/
def Reference.text (tbl : Nat → Bool) (i : Imports) : Reference → Outcome GoString
  | .package p => .ok (prefixOf i p.importPath).dropLast
  | .symbol s => .ok (writtenSymbol i s)
  | .method m => .ok (writtenSymbol i m.type ++ b! "." ++ m.method)
  | .type t => (t.mapSymbols
      (Symbol.withPrefix i.pkgPath fun p => (prefixOf i p).dropLast)).string tbl

/-- The types that the reference mentions can exist. -/
def Reference.valid : Reference → Prop
  | .type t => t.valid = true
  | _ => True

end Gopoet
