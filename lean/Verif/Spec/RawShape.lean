import Verif.PyTexts

/-!
# The form of what `raw` returns

Dictionaries with fixed keys in a fixed order; `comment` is only there for elements with comment lines.
-/

namespace Eno.Spec

/-- A text or `None`. -/
def orNone : Option Str → Py
  | none => .none
  | some s => .text s

/-- The beginning of each dictionary. -/
def begun (type : Str) (c : Option (Option Str)) : List (Str × Py) :=
  match c with
  | none => [(chars!"type", .text type)]
  | some c => [(chars!"type", .text type), (chars!"comment", orNone c)]

/-- An item. -/
inductive ItemShape : Py → Prop where
  | mk (c : Option (Option Str)) (v : Option Str) : ItemShape (.dict (begun (chars!"list_item") c ++ [(chars!"value", orNone v)]))

/-- An entry. -/
inductive EntryShape : Py → Prop where
  | mk (c : Option (Option Str)) (k : Str) (v : Option Str) : EntryShape (.dict (begun (chars!"fieldset_entry") c ++ [(chars!"key", .text k), (chars!"value", orNone v)]))

/-- An element of a section. -/
inductive ElementShape : Py → Prop where
  | empty (c : Option (Option Str)) (k : Str) : ElementShape (.dict (begun (chars!"empty_element") c ++ [(chars!"key", .text k)]))
  | field (c : Option (Option Str)) (k : Str) (v : Option Str) : ElementShape (.dict (begun (chars!"field") c ++ [(chars!"key", .text k), (chars!"value", orNone v)]))
  | list (c : Option (Option Str)) (k : Str) (xs : List Py) : (∀ x ∈ xs, ItemShape x) →
      ElementShape (.dict (begun (chars!"list") c ++ [(chars!"key", .text k), (chars!"items", .list xs)]))
  | fieldset (c : Option (Option Str)) (k : Str) (xs : List Py) : (∀ x ∈ xs, EntryShape x) →
      ElementShape (.dict (begun (chars!"fieldset") c ++ [(chars!"key", .text k), (chars!"entries", .list xs)]))
  | section (c : Option (Option Str)) (k : Str) (xs : List Py) : (∀ x ∈ xs, ElementShape x) →
      ElementShape (.dict (begun (chars!"section") c ++ [(chars!"key", .text k), (chars!"elements", .list xs)]))

/-- A document. -/
inductive DocumentShape : Py → Prop where
  | mk (xs : List Py) : (∀ x ∈ xs, ElementShape x) → DocumentShape (.dict [(chars!"type", .text (chars!"document")), (chars!"elements", .list xs)])

/-- What belongs to an instruction; the document is the first one. -/
def ShapeOf : Ref → Py → Prop
  | .elem 0 => DocumentShape
  | .elem _ => ElementShape
  | .item .. => ItemShape
  | .entry .. => EntryShape

/-- A whole number as text. -/
def numeral (n : Int) : Str := (toString n).toList

end Eno.Spec
