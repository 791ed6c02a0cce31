import Verif.MessageTexts

/-! # Errors as a program sees them -/

namespace Eno

/-- The text of a message in a language, if there is one (`getattr` raises AttributeError otherwise). -/
def Locale.text (l : Locale) (m : Msg) : Option Str := (l.pieces m).map (fillIn m.line m.key)

/-- The options that go with a language - context.py:9-13. -/
def Locale.options (l : Locale) (r : Reporter) (source : Option Str) : Options := ⟨r, source, l.gutterHeader, l.contentHeader⟩

/-- An error as a program sees it — error_types.py:1-9. -/
structure Told where
  text : Str
  snippet : Str
  message : Str
  selection : Selection
  cursor : Cursor
deriving DecidableEq, Repr

/-- `Error(text, snippet, selection)` — error_types.py:2-9. -/
def ErrObj.told (l : Locale) (e : ErrObj) : Option Told :=
  (l.text e.text).map fun t => ⟨t, e.snippet, t ++ ['\n', '\n'] ++ e.snippet, e.selection, e.selection.start⟩

/-- What `parse` raises. -/
inductive Thrown where
  | parseError (e : Told)
  | validationError (e : Told)
  | py (e : PyExc)
deriving DecidableEq, Repr

/-- What is raised, in a language. -/
def Raised.thrown (l : Locale) : Raised → Thrown
  | .parseError e => (e.told l).elim (.py .attributeError) .parseError
  | .validationError e => (e.told l).elim (.py .attributeError) .validationError
  | .py e => .py e

/-- `Context(input, locale=…, reporter=…, source=…)` — context.py:9-18. -/
def parseIn (l : Locale) (r : Reporter) (source : Option Str) (input : Str) : Except Thrown Ctx := (parse (l.options r source) input).mapError (Raised.thrown l)

end Eno
