import Verif.Spec.Faithful
import Verif.Spec.Forms

/-! # Specification: what is written in the ranges of an instruction -/

namespace Eno.Spec

/-- What a range of that name contains. -/
def RangeText : RangeName → Str → Prop
  | .line, _ => True
  | .elementOperator, t => t = [':']
  | .entryOperator, t => t = ['=']
  | .itemOperator, t => t = ['-']
  | .spacedLineContinuationOperator, t => t = ['\\']
  | .directLineContinuationOperator, t => t = ['|']
  | .commentOperator, t => t = ['>']
  | .copyOperator, t => t = ['<']
  | .deepCopyOperator, t => t = ['<', '<']
  | .sectionOperator, t => t ≠ [] ∧ ∀ c ∈ t, c = '#'
  | .multilineFieldOperator, t => 2 ≤ t.length ∧ ∀ c ∈ t, c = '-'
  | .escapeBeginOperator, t | .escapeEndOperator, t => t ≠ [] ∧ ∀ c ∈ t, c = '`'
  | .key, t | .template, t | .comment, t => Trimmed t
  | .value, t => '\n' ∉ t

/-- One range begins and ends before another begins. -/
def Precedes (r r' : Nat × Nat) : Prop := r.1 < r'.1 ∧ r.2 ≤ r'.1

/-- The ranges of an instruction do not overlap, apart from that of the line. -/
def Apart (b : Base) : Prop := b.ranges.Pairwise fun x y => x.1 = .line ∨ y.1 = .line ∨ Precedes x.2 y.2 ∨ Precedes y.2 x.2

/-- The names of the ranges of an instruction are exactly these. -/
def HasRanges (b : Base) (names : List RangeName) : Prop := b.ranges.map Prod.fst |>.Perm names

/-- The operators around an escaped key. -/
def escapeNames (escaped : Bool) : List RangeName := if escaped then [.escapeBeginOperator, .escapeEndOperator] else []

/-- The range of a value, if there is one. -/
def valueNames (value : Option Str) : List RangeName := if value.isSome then [.value] else []

/-- The ranges of an element apart from line, key and the backticks around the key. -/
def elementNames (e : Elem) : List RangeName :=
  match e.type, e.template with
  | .section, none => [.sectionOperator]
  | .section, some _ => [.sectionOperator, .template, if e.deepCopy then .deepCopyOperator else .copyOperator]
  | .mlBegin, _ => [.multilineFieldOperator]
  | _, some _ => [.template, .copyOperator]
  | _, none => .elementOperator :: valueNames e.value

end Eno.Spec
