import Verif.Spec.Trace

/-! # Specification: the lines of an input -/

namespace Eno.Spec

/-- No line feed between two offsets. -/
def NoNl (input : Str) (b e : Nat) : Prop := ∀ k, b ≤ k → k < e → input[k]? ≠ some '\n'

/-- Number of line feeds before an offset. -/
def nlBefore (input : Str) (k : Nat) : Nat := countNl (input.take k)

/-- Begins after a line feed and ends before one (or at the ends of the input). -/
structure IsLine (input : Str) (b e : Nat) : Prop where
  le : b ≤ e
  inside : e ≤ input.length
  start : b = 0 ∨ (0 < b ∧ input[b - 1]? = some '\n')
  stop : e = input.length ∨ input[e]? = some '\n'

/-- The text of a line, counted from 0; nothing beyond the end. -/
def lineText (input : Str) (n : Nat) : Str := (splitNl input).getD n []

/-- Only white space. -/
def WhiteLine (l : Str) : Prop := ∀ c ∈ l, isSp c = true

/-- Horizontal white space, then `>`. -/
def IsCommentLine (l : Str) : Prop := ∃ w rest, l = w ++ '>' :: rest ∧ ∀ c ∈ w, isHs c = true

/-- A line that cannot be the continuation of a line before it, nor be continued on the next line: its first visible character is not an operator that
follows a key, its last visible character is not `<`, and it is not a run of `#` alone. -/
def NeatLine (l : Str) : Prop :=
  (∀ c ∈ (l.dropWhile isSp).head?, c ≠ ':' ∧ c ≠ '=' ∧ c ≠ '<') ∧ (l.reverse.dropWhile isSp).head? ≠ some '<' ∧ ('#' ∈ l → ∃ c ∈ l, isSp c = false ∧ c ≠ '#')

instance (l : Str) : Decidable (NeatLine l) := by unfold NeatLine; infer_instance

/-- All lines are like that. -/
def Neat (input : Str) : Prop := ∀ l ∈ splitNl input, NeatLine l

instance (input : Str) : Decidable (Neat input) := by unfold Neat; infer_instance

end Eno.Spec
