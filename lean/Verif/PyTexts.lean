import Verif.Elements
import Verif.Lookup

/-!
# Texts and dictionaries that Python code sees

The texts of the exceptions that the library raises with a text of its own (`lookup.py`, `section_element.py`), the names of types (`constants.py`), and the dictionaries that `raw` returns
(`context.py`). In the other files these exceptions have no text and `raw` returns a tree.
-/

namespace Eno

/-- The values in what `raw` returns; a dictionary lists its keys in the order in which they were set. -/
inductive Py where
  | none
  | text (s : Str)
  | list (xs : List Py)
  | dict (ps : List (Str × Py))

/-- `str(n)` -/
def intText : Int → Str
  | .ofNat n => decimal n
  | .negSucc n => '-' :: decimal (n + 1)

/-- `pretty` — constants.py:27-38; `none` is `None`, for types that the dictionary does not have. -/
def Ty.pretty : Ty → Option Str
  | .document => some (chars!"document")
  | .empty => some (chars!"empty_element")
  | .field => some (chars!"field")
  | .fieldset => some (chars!"fieldset")
  | .fieldsetEntry => some (chars!"fieldset_entry")
  | .list => some (chars!"list")
  | .listItem => some (chars!"list_item")
  | .mlBegin => some (chars!"field")
  | .section => some (chars!"section")
  | _ => none

/-- A text or `None`. -/
def Py.ofOption : Option Str → Py
  | Option.none => .none
  | some s => .text s

/-- The first keys of the dictionary: `type`, and `comment` and `key` for elements that have them — context.py:130-133 and the assignments of `key` in :135-156. -/
def rawHead (t : Ty) (c : Option (Option Str)) (k : Option Str) : List (Str × Py) :=
  (chars!"type", .ofOption t.pretty) ::
    ((match c with | none => [] | some c => [(chars!"comment", .ofOption c)]) ++ (match k with | none => [] | some k => [(chars!"key", .text k)]))

/-- The key of the list of what is inside — context.py:150, 153, 156, 158. -/
def childrenKey : Ty → Str
  | .list => chars!"items"
  | .fieldset => chars!"entries"
  | _ => chars!"elements"

mutual

/-- The dictionary that `raw` returns — context.py:129-160. -/
def Raw.dict : Raw → Py
  | .leaf t c k v => .dict (rawHead t c k ++ (match v with | none => [] | some v => [(chars!"value", .ofOption v)]))
  | .node t c k xs => .dict (rawHead t c k ++ [(childrenKey t, .list (dicts xs))])

/-- `[self.raw(…) for … in …]` -/
def dicts : List Raw → List Py
  | [] => []
  | x :: xs => x.dict :: dicts xs

end

/-- The text of the `IndexError` of `lookup`, if it raises that: lookup.py:220-229. The document is parsed before. -/
def lookupText (input : Str) (line index : Option Int) : Option Str :=
  match load input with
  | .error _ => none
  | .ok ctx =>
    match index with
    | none =>
      match line with
      | none => none
      | some l =>
        if l < 0 ∨ l ≥ ctx.lineCount then
          some (chars!"You are trying to look up a line (" ++ intText l ++ chars!") outside of the document's line range (0-" ++ intText (ctx.lineCount - 1) ++ chars!")")
        else none
    | some i =>
      if i < 0 ∨ i > input.length then
        some (chars!"You are trying to look up an index (" ++ intText i ++ chars!") outside of the document's index range (0-" ++ intText input.length ++ chars!")")
      else none

namespace El

/-- The type that `_yielded` is set to — section_element.py:43, 58, 71, 84, 94. -/
def Kind.type : Kind → Ty
  | .empty => .empty
  | .field => .field
  | .fieldset => .fieldset
  | .list => .list
  | .section => .section

/-- The end of the text of the `TypeError` — section_element.py:37, 50, 65, 78; `to_section` has none. -/
def Kind.again : Kind → Str
  | .empty => chars!"an empty."
  | .field => chars!"a field."
  | .fieldset => chars!"a fieldset."
  | .list => chars!"a list."
  | .section => []

/-- The text of the `TypeError` of `to_empty`, `to_field`, `to_fieldset` and `to_list`, if they raise that: section_element.py:34-88. -/
def toText (k : Kind) (x : Obj) : Option Str :=
  match x.made k with
  | some _ => none
  | none =>
    match x.yielded with
    | none => none
    | some j =>
      if k = .section then none
      else some (chars!"This element was already yielded as " ++ j.type.pretty.getD (chars!"None") ++ chars!" and can't be yielded again as " ++ k.again)

end El

end Eno
