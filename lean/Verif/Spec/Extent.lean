import Verif.Spec.Position

/-! # Specification: the lines of an element, and the elements whose end the reporter loses -/

namespace Eno.Spec

/-- The line of the last of some instructions. -/
def endLine (bs : List Base) : Nat := (bs.getLast?.map (·.line)).getD 0

/-- The last line that belongs to an element, including everything in a section. -/
inductive EndsAt (h : Heap) : Nat → Nat → Prop where
  | leaf {i} : (h.at i).type ≠ .section → EndsAt h i (endLine (h.at i).rows)
  | bare {i} : (h.at i).type = .section → (h.at i).elements = [] → EndsAt h i (h.at i).line
  | section {i j n} : (h.at i).type = .section → (h.at i).elements.getLast? = some j → EndsAt h j n → EndsAt h i n

/-- Elements that `_tag_element` returns `None` for: elements without anything, fieldsets without own entries (copies), and sections that end with such an element. -/
inductive Silent (h : Heap) : Nat → Prop where
  | empty {i} : (h.at i).type = .empty → Silent h i
  | fieldset {i} : (h.at i).type = .fieldset → (h.at i).entries = none → Silent h i
  | section {i j} : (h.at i).type = .section → (h.at i).elements.getLast? = some j → Silent h j → Silent h i

/-- Sections in which something follows a silent element, at any depth. -/
inductive Stuck (h : Heap) : Nat → Prop where
  | here {s i j pre post} : (h.at s).elements = pre ++ i :: j :: post → Silent h i → Stuck h s
  | inner {s i} : i ∈ (h.at s).elements → (h.at i).type = .section → Stuck h i → Stuck h s

/-- Sections in which something follows a silent element before the first section in it. -/
def StuckAbove (h : Heap) (s : Nat) : Prop :=
  ∃ pre i j post, (h.at s).elements = pre ++ i :: j :: post ∧ Silent h i ∧ ∀ k ∈ pre ++ [i], (h.at k).type ≠ .section

/-- The first line behind what a section contains before the first section in it. -/
def AboveEnds (h : Heap) (start : Nat) (is : List Nat) (n : Nat) : Prop :=
  (∃ pre j post, is = pre ++ j :: post ∧ (h.at j).type = .section ∧ (∀ k ∈ pre, (h.at k).type ≠ .section) ∧ n = (h.at j).line) ∨
  ((∀ k ∈ is, (h.at k).type ≠ .section) ∧ ((is = [] ∧ n = start) ∨ ∃ l, is.getLast? = some l ∧ n = endLine (h.at l).rows + 1))

/-- The last line of an element, an item or an entry. -/
inductive RefEnds (h : Heap) : Ref → Nat → Prop where
  | elem {i n} : EndsAt h i n → RefEnds h (.elem i) n
  | item {i k xs x} : (h.at i).items = some xs → xs[k]? = some x → RefEnds h (.item i k) (endLine x.rows)
  | entry {i k xs x} : (h.at i).entries = some xs → xs[k]? = some x → RefEnds h (.entry i k) (endLine x.rows)

/-- An element in which tagging gets stuck. -/
def RefStuck (h : Heap) : Ref → Prop
  | .elem i => Stuck h i
  | _ => False

end Eno.Spec
