import Verif.Errors
import Verif.Spec.Lines

/-! # Specification: selections -/

namespace Eno.Spec

/-- A selection on the line from `lb` to `le`: the ends are in order within it, the columns are counted from its beginning, and both ends have the same line number. -/
structure Selects (lb le : Nat) (sel : Selection) : Prop where
  start : lb ≤ sel.start.index
  order : sel.start.index ≤ sel.stop.index
  stop : sel.stop.index ≤ le
  startColumn : sel.start.column = (sel.start.index : Int) - lb
  stopColumn : sel.stop.column = (sel.stop.index : Int) - lb
  line : sel.stop.line = sel.start.line

end Eno.Spec
