import Verif.Reporter
import Verif.Spec.Lines

/-!
# Specification: snippets

A snippet is a list of rows: a line of the document with its mark, its number and its text, or a gap.
-/

namespace Eno.Spec

/-- How a line is marked. -/
inductive Mark where
  | plain | emphasis | indication | question
deriving DecidableEq, Repr

/-- The sign of a mark in plain text. -/
def Mark.sign : Mark → Char
  | .plain => ' '
  | .emphasis => '>'
  | .indication => '*'
  | .question => '?'

/-- A row of a snippet. Numbers begin with one. -/
inductive SnipRow where
  | omitted
  | line (mark : Mark) (number : Nat) (text : Str)
deriving DecidableEq, Repr

/-- The width of the column of line numbers. -/
def numberWidth (o : Options) : Nat := max 5 o.gutterHeader.length

/-- A row in plain text. -/
def SnipRow.plain (w : Nat) : SnipRow → Str
  | .omitted => List.replicate (w - 2) ' ' ++ ['.', '.', '.']
  | .line m n t => ' ' :: m.sign :: (rjust w (decimal n) ++ ' ' :: '|' :: ' ' :: t)

/-- A snippet in plain text. -/
def plainSnippet (o : Options) (rows : List SnipRow) : Str :=
  (match o.source with
    | some src => chars!"-- " ++ src ++ chars!" --\n\n"
    | none => []) ++ chars!"  " ++ rjust 5 o.gutterHeader ++ chars!" | " ++ o.contentHeader ++ '\n' :: joinLines (rows.map (SnipRow.plain (numberWidth o)))

/-- The numbers of the lines that are shown. -/
def SnipRow.number? : SnipRow → Option Nat
  | .omitted => none
  | .line _ n _ => some n

/-- The lines are shown in their order. -/
def InOrder (rows : List SnipRow) : Prop := (rows.filterMap SnipRow.number?).Pairwise (· < ·)

/-- The rows account for the lines from number `n` to number `last`: each is shown or in a gap, a gap is not empty, and there are no two gaps in a row. -/
def Accounts (last : Nat) : Nat → List SnipRow → Prop
  | n, [] => n = last + 1
  | n, [.omitted] => n ≤ last
  | _, .omitted :: .omitted :: _ => False
  | n, .omitted :: .line _ k _ :: rows => n < k ∧ Accounts last (k + 1) rows
  | n, .line _ k _ :: rows => k = n ∧ Accounts last (n + 1) rows

/-- Only marks that reports make. -/
def Marked (s : Snippet) : Prop := ∀ t, some t ∈ s → t = .emphasize ∨ t = .indicate ∨ t = .question

/-- The mark of a line that a report made. -/
def MarkedAs (s : Snippet) (n : Nat) : Mark → Prop
  | .emphasis => s.getD n none = some .emphasize
  | .indication => s.getD n none = some .indicate
  | .question => s.getD n none = some .question
  | .plain => False

/-- Some mark. -/
def IsMarked (s : Snippet) (n : Nat) : Prop := ∃ m, MarkedAs s n m

end Eno.Spec
