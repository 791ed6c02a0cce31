import Verif.Spec.Snippet
import Verif.Spec.Faithful

/-!
# Specification: reading what is written to a terminal

A terminal shows characters; escape sequences (the escape character, `[`, a code and `m`) are not shown but change the look of what follows, where the code `0` means
that nothing is special any more.
-/

namespace Eno.Spec

/-- The codes in force: `1` bold, `2` dim, `30` black, `37` white, `90` bright black, `97` bright white, and `40`, `47`, `101` for backgrounds. -/
abbrev Look := List Str

/-- What a terminal shows at one place. -/
abbrev Cell := Char × Look

/-- The escape character. -/
def escape : Char := Char.ofNat 27

/-- Where a terminal is when it reads. -/
inductive Reading where
  | text
  | escaped
  | code (s : Str)

/-- Read on. -/
def readTerminal : Reading → Look → Str → List Cell
  | _, _, [] => []
  | .text, l, c :: s => if c = escape then readTerminal .escaped l s else (c, l) :: readTerminal .text l s
  | .escaped, l, _ :: s => readTerminal (.code []) l s
  | .code a, l, c :: s => if c = 'm' then readTerminal .text (if a = ['0'] then [] else l ++ [a]) s else readTerminal (.code (a ++ [c])) l s

/-- What is shown of a text. -/
def screen (s : Str) : List Cell := readTerminal .text [] s

/-- A text that looks the same everywhere. -/
def cells (l : Look) (s : Str) : List Cell := s.map (·, l)

/-- How the parts of a line look. -/
def rangeLook : RangeName → Look
  | .key | .template => [chars!"1", chars!"97"]
  | .value => [chars!"2", chars!"37"]
  | .line => []
  | _ => [chars!"37"]

/-- How the character at an offset looks: comments as a whole, other lines depending on the range that it is in. -/
def lookAt (b : Base) (i : Nat) : Look :=
  if RangeName.commentOperator ∈ b.ranges.map Prod.fst then [chars!"90"]
  else
    match b.ranges.find? fun x => decide (x.1 ≠ .line ∧ x.2.1 ≤ i ∧ i < x.2.2) with
    | some x => rangeLook x.1
    | none => []

/-- How a stretch of the line of an instruction looks. -/
def stretch (input : Str) (b : Base) (lo hi : Nat) : List Cell := (List.range' lo (hi - lo)).map fun i => (input.getD i ' ', lookAt b i)

/-- A row: a gap, or a line with its mark, its number and the instruction on it, if there is one. -/
inductive TermRow where
  | omitted
  | line (mark : Mark) (number : Nat) (b : Option Base)

/-- The same row, as plain text knows it. -/
def TermRow.row (input : Str) : TermRow → SnipRow
  | .omitted => .omitted
  | .line m n none => .line m n []
  | .line m n (some b) => .line m n (slice input b.span.1 b.span.2)

/-- How the gutter looks. -/
def Mark.look : Mark → Look
  | .plain => [chars!"40"]
  | .emphasis => [chars!"30", chars!"101"]
  | .indication | .question => [chars!"30", chars!"47"]

/-- What is shown of a row; `w` is the width of the numbers. -/
def TermRow.shown (input : Str) (w : Nat) : TermRow → List Cell
  | .omitted => cells [chars!"2", chars!"40"] (rjust (w + 2) (chars!"...") ++ chars!"  ")
  | .line m n b => cells m.look (' ' :: m.sign :: ' ' :: (rjust w (decimal n) ++ [' '])) ++ (' ', []) ::
      match b with
      | none => []
      | some b => stretch input b b.span.1 b.span.2

/-- A row with the operator of a deep copy. -/
def TermRow.Deep : TermRow → Prop
  | .line _ _ (some b) => RangeName.deepCopyOperator ∈ b.ranges.map Prod.fst
  | _ => False

/-- Rows below each other. -/
def below : List (List Cell) → List Cell
  | [] => []
  | [r] => r
  | r :: rs => r ++ ('\n', []) :: below rs

/-- The line with the name of the source. -/
def sourceShown (w : Nat) : Option Str → List Cell
  | some (c :: cs) => cells [chars!"30", chars!"101"] (chars!" > " ++ rjust w [' '] ++ [' ']) ++ (' ', []) :: cells [chars!"1"] (c :: cs) ++ [('\n', [])]
  | _ => []

/-- Every row is about the line of the document with its number. -/
def AboutLines (ctx : Ctx) (rows : List TermRow) : Prop := ∀ m n b, TermRow.line m n b ∈ rows →
  match b with
  | some b => b ∈ ctx.instructions ∧ n = b.line + 1
  | none => ∀ b ∈ ctx.instructions, n ≠ b.line + 1

end Eno.Spec
