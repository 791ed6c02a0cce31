import Verif.Errors

/-!
# Messages as text

The messages of `/repo/python/enolib/messages/*.py` are strings and f-strings; here they are lists of pieces.
-/

namespace Eno

/-- The languages that come with the library. -/
inductive Locale where
  | en | de | es
deriving DecidableEq, Repr

/-- A part of an f-string: literal text, `{line}`, or `{key}` (or `{message}`). -/
inductive Piece where
  | lit (s : Str)
  | line
  | key
deriving DecidableEq, Repr

/-- What is inserted for `{line}`. -/
def Msg.line : Msg → Nat
  | .cyclicDependency n _ | .invalidLine n | .missingElementForContinuation n | .missingFieldsetForFieldsetEntry n | .missingListForListItem n
  | .nonSectionElementNotFound n _ | .sectionHierarchyLayerSkip n | .sectionNotFound n _ | .unterminatedEscapedKey n | .unterminatedMultilineField _ n => n
  | _ => 0

/-- What is inserted for `{key}` or `{message}`. -/
def Msg.key : Msg → Str
  | .cyclicDependency _ k | .nonSectionElementNotFound _ k | .sectionNotFound _ k | .twoOrMoreTemplatesFound k | .unterminatedMultilineField k _
  | .given k | .commentError k | .keyError k | .valueError k | .missingFieldValue k | .missingFieldsetEntryValue k | .missingListItemValue k | .named _ (some k) => k
  | _ => []

/-- The value of an f-string. -/
def fillIn (line : Nat) (key : Str) : List Piece → Str
  | [] => []
  | .lit s :: ps => s ++ fillIn line key ps
  | .line :: ps => decimal line ++ fillIn line key ps
  | .key :: ps => key ++ fillIn line key ps

end Eno
