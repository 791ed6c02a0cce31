import Verif.Spec.Answers

/-! # Everything that can be asked about a document -/

namespace Eno.Spec

/-- The question is about something in the document and of a kind that the typed interface would ask. Unlike `Sensible`, nothing is said about comments or copies. -/
def Askable (h : Heap) : Query → Prop
  | .value (.elem i) => i < h.length ∧ (h.at i).type ≠ .section
  | .value r => (h.sub? r).isSome
  | .comment _ => True
  | .items i => i < h.length ∧ (h.at i).type ≠ .section ∧ KindOf h i .list
  | .entries i => i < h.length ∧ (h.at i).type ≠ .section ∧ KindOf h i .fieldset
  | .elements s => s < h.length ∧ ((h.at s).type = .section ∨ s = 0)
  | .raw (.elem i) => i < h.length
  | .raw r => (h.sub? r).isSome

/-- There is a section that is a copy without own elements. -/
def BareCopy (h : Heap) : Prop := ∃ s, s < h.length ∧ (h.at s).type = .section ∧ (h.at s).copy.isSome ∧ (h.at s).elements = []

/-- A section that is a copy without own elements. -/
def HollowCopy (h : Heap) (s : Nat) : Prop := (h.at s).type = .section ∧ (h.at s).copy.isSome ∧ (h.at s).elements = []

/-- The section whose elements are those of `s`: `s` itself if it is not a copy without own elements, else that of its template. -/
inductive Reveals (h : Heap) : Nat → Nat → Prop where
  | self {s} : ¬ HollowCopy h s → Reveals h s s
  | copy {s t m} : HollowCopy h s → TemplateIs h s t → Reveals h t m → Reveals h s m

/-- The section whose elements are those of `s` extends, in the end, a copy without own elements. -/
def Shaky (h : Heap) (s : Nat) : Prop := ∃ m b, Reveals h s m ∧ Leads h m b ∧ HollowCopy h b

end Eno.Spec
