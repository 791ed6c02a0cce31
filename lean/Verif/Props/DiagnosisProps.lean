import Verif.Proofs.Explained

/-! # What parse errors say -/

namespace Eno

open Spec

variable {input : Str} {o : Options} {e : ErrObj}

/-- Property C66: what the message of a parse error says is so, what is selected is what the message is about, and the snippet emphasises the line of the selection, indicates and questions
the other lines that have to do with the error, and no others. -/
theorem C66_parse_error (h : parse o input = .error (.parseError e)) :
    ∃ ind ques, Explains input e.text e.selection ind ques ∧ (o.reporter = .text → TextMarks o e.snippet (· = e.selection.start.line) ind ques) := explained h

/-- The lines of which it is said that their key is not closed, and where. -/
theorem C66_unclosed {line : Str} {n : Nat} (h : '\n' ∉ line) : unterminatedKey line = some n ↔ Unclosed line n := unterminatedKey_iff h

/-- What is raised: the message and the selection. -/
private def said (input : Str) : Option (Msg × Selection) :=
  match parse {} input with
  | .error (.parseError e) => some (e.text, e.selection)
  | _ => none

example : said (chars!"a: 1\n- b") = some (.missingListForListItem 2, onLine 1 5 5 8) := by decide +kernel
example : said (chars!"a: 1\nb = 2") = some (.missingFieldsetForFieldsetEntry 2, onLine 1 5 5 10) := by decide +kernel
example : said (chars!"# a\n| b") = some (.missingElementForContinuation 2, onLine 1 4 4 7) := by decide +kernel
example : said (chars!"# a\n### b") = some (.sectionHierarchyLayerSkip 2, onLine 1 4 4 9) := by decide +kernel
example : said (chars!"a: 1\nb") = some (.invalidLine 2, onLine 1 5 5 6) := by decide +kernel
example : said (chars!"## ``a` b: 1") = some (.unterminatedEscapedKey 1, onLine 0 0 5 12) := by decide +kernel
example : said (chars!"> c\n-- a b\ntext") = some (.unterminatedMultilineField (chars!"a b") 2, onLine 1 4 4 10) := by decide +kernel
example : said (chars!"a: 1\na: 2\nb < a") = some (.twoOrMoreTemplatesFound ['a'], onLine 2 10 10 15) := by decide +kernel
example : said (chars!"b < a") = some (.nonSectionElementNotFound 1 ['a'], onLine 0 0 0 5) := by decide +kernel
example : said (chars!"# b << a") = some (.sectionNotFound 1 ['a'], onLine 0 0 0 8) := by decide +kernel
example : said (chars!"b < a\na < b") = some (.cyclicDependency 2 ['b'], onLine 1 6 10 11) := by decide +kernel
example : said (chars!"a:\nk = 1\nb < a\n- i\n- j") = some (.missingListForListItem 4, onLine 3 15 15 18) := by decide +kernel
example : said (chars!"a: 1\nb < a\nk = 2") = some (.missingFieldsetForFieldsetEntry 3, onLine 2 11 11 16) := by decide +kernel

/-- The marks in the snippets: the last heading, and the candidates. -/
example : (match parse {} (chars!"# a\n## b\nc: 1\n#### d") with | .error (.parseError e) => some e.snippet | _ => none) =
    some (chars!"   Line | Content\n      1 | # a\n *    2 | ## b\n      3 | c: 1\n >    4 | #### d") := by decide +kernel
example : (match parse {} (chars!"a: 1\na: 2\n\nb < a") with | .error (.parseError e) => some e.snippet | _ => none) =
    some (chars!"   Line | Content\n ?    1 | a: 1\n ?    2 | a: 2\n      3 | \n >    4 | b < a") := by decide +kernel

end Eno
