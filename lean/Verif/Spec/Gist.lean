import Verif.Errors
import Verif.Session

/-!
# Specification: documents that are the same apart from the layout

What a program can ask a document for, and what the errors say, apart from line numbers, selections and snippets.
-/

namespace Eno.Spec

/-- A message of a parse error without the line number. Invalid lines are reported in two ways, depending on whether there is an escape in front of them that is never closed. -/
def gist : Msg → Msg
  | .cyclicDependency _ k => .cyclicDependency 0 k
  | .invalidLine _ => .invalidLine 0
  | .unterminatedEscapedKey _ => .invalidLine 0
  | .missingElementForContinuation _ => .missingElementForContinuation 0
  | .missingFieldsetForFieldsetEntry _ => .missingFieldsetForFieldsetEntry 0
  | .missingListForListItem _ => .missingListForListItem 0
  | .nonSectionElementNotFound _ k => .nonSectionElementNotFound 0 k
  | .sectionHierarchyLayerSkip _ => .sectionHierarchyLayerSkip 0
  | .sectionNotFound _ k => .sectionNotFound 0 k
  | .unterminatedMultilineField k _ => .unterminatedMultilineField k 0
  | m => m

/-- The results of parsing two texts: two documents of the same elements which answer each question in the same way, or two errors with the same message, or the same exception. -/
inductive SameParse (i i' : Str) : Except Raised Ctx → Except Raised Ctx → Prop where
  | documents {c c' : Ctx} : c'.heap.length = c.heap.length → (∀ q fuel cache, Query.run i' c'.heap fuel q cache = Query.run i c.heap fuel q cache) → SameParse i i' (.ok c) (.ok c')
  | errors {e e' : ErrObj} : gist e'.text = gist e.text → SameParse i i' (.error (.parseError e)) (.error (.parseError e'))
  | exceptions {x : PyExc} : SameParse i i' (.error (.py x)) (.error (.py x))

end Eno.Spec
