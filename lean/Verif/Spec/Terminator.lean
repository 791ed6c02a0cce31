import Verif.Spec.Scan

/-!
# Specification of multiline field terminators

A terminator line is, apart from horizontal white space around its parts, the same run of dashes and the same key as the
opening line. A multiline field ends at the first line after the opening line that is one.
-/

namespace Eno.Spec

/-- If `line` is a terminator line: the width of its indent and of the gap between dashes and key. -/
def terminatorLine (op key line : Str) : Option (Nat × Nat) :=
  let h := runLen isHs line
  let r := line.drop h
  if op.isPrefixOf r ∧ (r.drop op.length).head? ≠ some '-' then
    let g := runLen isHs (r.drop op.length)
    let r' := r.drop (op.length + g)
    if key.isPrefixOf r' ∧ (r'.drop key.length).all isHs then some (h, g) else none
  else none

/-- An occurrence of a terminator: the offset of the line feed before it, the offsets of dashes and key, the end of its line. -/
structure Term where
  start : Nat
  op : Nat
  key : Nat
  fin : Nat
deriving DecidableEq, Repr

/-- The first terminator line after a line feed in `s` (which starts at offset `pos`). -/
def findTerminator (op key : Str) (pos : Nat) : Str → Option Term
  | [] => none
  | c :: t =>
    match if c = '\n' then terminatorLine op key (lineOf t) else none with
    | some (h, g) => some ⟨pos, pos + 1 + h, pos + 1 + h + op.length + g, pos + 1 + (lineOf t).length⟩
    | none => findTerminator op key (pos + 1) t

end Eno.Spec
