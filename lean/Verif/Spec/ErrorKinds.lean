import Verif.Errors
import Verif.Spec.Snippet
import Verif.Spec.Faithful
import Verif.Spec.Position

/-! # Specification: errors about the key, the value and the comments of an element -/

namespace Eno.Spec

/-- A plain text snippet in which exactly these lines (counted from zero) are emphasised and indicated, and none is questioned. Every line is shown or in a gap. For neat input
the lines that are shown are shown with their text. -/
def SnippetShows (o : Options) (input : Str) (lines : Nat) (out : Str) (emphasised indicated : Nat → Prop) : Prop :=
  ∃ rows, out = plainSnippet o rows ∧ Accounts lines 1 rows ∧
    (∀ n, (∃ t, SnipRow.line .emphasis (n + 1) t ∈ rows) ↔ emphasised n) ∧
    (∀ n, (∃ t, SnipRow.line .indication (n + 1) t ∈ rows) ↔ indicated n) ∧
    (∀ k t, SnipRow.line .question k t ∉ rows) ∧
    (Neat input → ∀ m n t, SnipRow.line m (n + 1) t ∈ rows → t = lineText input n ∨ (t = [] ∧ WhiteLine (lineText input n)))

/-- The value on the line of an element, item or entry. -/
def lineValue (h : Heap) : Ref → Option Str
  | .elem i => (h.at i).value
  | .item i k => ((h.at i).items.getD [])[k]?.bind (·.value)
  | .entry i k => ((h.at i).entries.getD [])[k]?.bind (·.value)

/-- The continuations of an element, item or entry. -/
def lineConts (h : Heap) : Ref → List Cont
  | .elem i => (h.at i).continuations.getD []
  | .item i k => (((h.at i).items.getD [])[k]?.bind (·.continuations)).getD []
  | .entry i k => (((h.at i).entries.getD [])[k]?.bind (·.continuations)).getD []

/-- The comments that are attached to an element, item or entry. -/
def ownComments (h : Heap) : Ref → List Comment
  | .elem i => (h.at i).comments.getD []
  | .item i k => (((h.at i).items.getD [])[k]?.bind (·.comments)).getD []
  | .entry i k => (((h.at i).entries.getD [])[k]?.bind (·.comments)).getD []

/-- The key of an element or entry. -/
def writtenKey (h : Heap) : Ref → Option Str
  | .elem i => some (h.at i).key
  | .item .. => none
  | .entry i k => ((h.at i).entries.getD [])[k]?.bind (·.key)

/-- The position at an offset on the line of an instruction. -/
def positionOn (b : Base) (index : Nat) : Cursor := ⟨(index : Int) - b.span.1, index, b.line⟩

/-- What a missing value would be written behind: the operator of the instruction, the template of a copy, the line of a multiline field. -/
def gapAfter (h : Heap) : Ref → RangeName
  | .elem i => if (h.at i).template.isSome then .template else if (h.at i).type = .mlBegin then .line else .elementOperator
  | .item .. => .itemOperator
  | .entry .. => .entryOperator

/-- What a value would be written behind in an error about it: the operator of the instruction, the line if there is none. -/
def valueAfter (h : Heap) : Ref → RangeName
  | .elem i => if (h.at i).template.isSome ∨ (h.at i).type = .section then .line else .elementOperator
  | .item .. => .itemOperator
  | .entry .. => .entryOperator

/-- The message about a missing value, which names the element, the entry or the list of the item. -/
def missingText (h : Heap) : Ref → Msg
  | .elem i => .missingFieldValue (h.at i).key
  | .item i _ => .missingListItemValue (h.at i).key
  | .entry i k => .missingFieldsetEntryValue ((writtenKey h (.entry i k)).getD [])

/-- The end of the line of the last continuation, or of the first line if there is none. -/
def textEnd (b : Base) (cs : List Cont) : Cursor :=
  match cs.getLast? with
  | some c => positionOn c.toBase c.span.2
  | none => positionOn b b.span.2

end Eno.Spec
