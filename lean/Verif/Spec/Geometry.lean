import Verif.Spec.Trace

/-!
# Specification: where the parts of an instruction lie

`c.In input` says that a group is faithful: its text is the non-empty slice of the input at its offsets. `Placed input lo fin cs` says that
groups follow each other without overlapping between the offsets `lo` and `fin`.
-/

namespace Eno

/-- The group is a non-empty slice of the input. -/
def Cap.In (input : Str) (c : Cap) : Prop := c.text <+: input.drop c.b ∧ c.e = c.b + c.text.length ∧ c.text ≠ []

/-- Groups in textual order between two offsets. -/
def Spec.Placed (input : Str) : Nat → Nat → List Cap → Prop
  | lo, fin, [] => lo ≤ fin
  | lo, fin, c :: cs => lo ≤ c.b ∧ c.In input ∧ Spec.Placed input c.e fin cs

/-- The groups of a key in textual order. -/
def KeyTok.caps : KeyTok → List Cap
  | .plain k => [k]
  | .escaped b k e => [b, k, e]

/-- The groups of an instruction in textual order. -/
def Body.caps : Body → List Cap
  | .empty => []
  | .element k op v => k.caps ++ op :: v.toList
  | .listItem op v => op :: v.toList
  | .entry k op v => k.caps ++ op :: v.toList
  | .continuation _ op v => op :: v.toList
  | .heading op k none => op :: k.caps
  | .heading op k (some (c, t)) => op :: k.caps ++ [c, t]
  | .multiline op k => [op, k]
  | .comment op v => op :: v.toList
  | .copy k op t => k.caps ++ [op, t]

end Eno
