import Verif.Spec.Reading
import Verif.Session

/-! # Specification: the answers of a `Context` -/

namespace Eno.Spec

/-- The right answer, read off the analysed document `h`. -/
inductive AnswerOf (input : Str) (h : Heap) : Query → Answer → Prop where
  | value {i v} : ValueOf input h i v → AnswerOf input h (.value (.elem i)) (.text v)
  | subValue {r x} : h.sub? r = some x → AnswerOf input h (.value r) (.text (joined (valueParts x.value x.continuations)))
  | comment {i c} : CommentsOf h i c → AnswerOf input h (.comment (.elem i)) (.text (commentOf c))
  | subComment {r x} : h.sub? r = some x → AnswerOf input h (.comment r) (.text (commentOf x.comments))
  | items {i xs} : ItemsOf h i xs → AnswerOf input h (.items i) (.refs xs)
  | entries {i xs} : EntriesOf h i xs → AnswerOf input h (.entries i) (.refs xs)
  | elements {s xs} : CopiedFirst h s xs → AnswerOf input h (.elements s) (.elements (some xs))
  | raw {r x} : RawOf input h r x → AnswerOf input h (.raw r) (.raw x)

/-- Not a single empty line. -/
def Readable (c : Option (List Comment)) : Prop := ∀ x, c = some [x] → x.comment.isSome

/-- No element, item or entry has a single empty comment line. -/
def CommentsReadable (h : Heap) : Prop := ∀ r cs, h.comments r = some cs → ∀ c, cs = [c] → c.comment.isSome

/-- Neither a section nor the document. -/
def Plain (h : Heap) : Ref → Prop
  | .elem i => (h.at i).type ≠ .section ∧ i ≠ 0
  | _ => True

/-- All sections are straight. -/
def AllStraight (h : Heap) : Prop := ∀ s, s < h.length → (h.at s).type = .section ∨ s = 0 → Straight h s

/-- Questions that make sense and are out of reach of the defects of `Context.elements` and `Context.comment`. -/
def Sensible (h : Heap) : Query → Prop
  | .value (.elem i) => i < h.length ∧ (h.at i).type ≠ .section
  | .value r => (h.sub? r).isSome
  | .comment (.elem i) => i < h.length ∧ ((h.at i).type ≠ .section ∨ Undisturbed h i) ∧ ∀ c, CommentsOf h i c → Readable c
  | .comment r => ∃ x, h.sub? r = some x ∧ Readable x.comments
  | .items i => i < h.length ∧ (h.at i).type ≠ .section ∧ KindOf h i .list
  | .entries i => i < h.length ∧ (h.at i).type ≠ .section ∧ KindOf h i .fieldset
  | .elements s => s < h.length ∧ ((h.at s).type = .section ∨ s = 0) ∧ Straight h s
  | .raw (.elem i) => i < h.length ∧ CommentsReadable h ∧ (Plain h (.elem i) ∨ AllStraight h)
  | .raw r => (h.sub? r).isSome ∧ CommentsReadable h

/-- The same, and comments of anything. -/
def Harmless (h : Heap) : Query → Prop
  | .comment _ => True
  | q => Sensible h q

end Eno.Spec
