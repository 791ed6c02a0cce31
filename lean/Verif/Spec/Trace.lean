import Verif.Spec.Terminator

/-!
# Specification: the lines of an input

`Trace input i n es r` says: reading the input from offset `i`, where line number `n` starts, meets the instructions `es` and
ends with `r`. It only says how the input is cut into instructions, not what they mean together.
-/

namespace Eno.Spec

/-- Number of line feeds. -/
def countNl (s : Str) : Nat := s.count '\n'

/-- Split at line feeds (always at least one piece). -/
def splitNl : Str → List Str
  | [] => [[]]
  | c :: t =>
    if c = '\n' then [] :: splitNl t
    else
      match splitNl t with
      | [] => [[c]]
      | l :: ls => (c :: l) :: ls

/-- Number and place consecutive lines: (line number, begin, end). -/
def place (n i : Nat) : List Str → List (Nat × Nat × Nat)
  | [] => []
  | l :: ls => (n, i, i + l.length) :: place (n + 1) (i + l.length + 1) ls

/-- An instruction with its line number and begin offset; a multiline field comes with its body lines and its terminator. -/
inductive Event where
  | line (n b : Nat) (t : Tok)
  | multi (n b fin : Nat) (op key : Cap) (body : List (Nat × Nat × Nat)) (T : Term)
deriving DecidableEq, Repr

/-- Line number and begin offset of an event. -/
def Event.at : Event → Nat × Nat
  | .line n b _ => (n, b)
  | .multi n b .. => (n, b)

/-- How reading ends: at the end of the input (with the next line number), at an unrecognisable line, or in a multiline field
without terminator. -/
inductive Ending where
  | finished (n : Nat)
  | invalid (n b : Nat)
  | unterminated (n b fin : Nat) (op key : Cap)
deriving DecidableEq, Repr

/-- Not the opening line of a multiline field. -/
def oneLine (t : Tok) : Prop := ∀ op key, t.body ≠ .multiline op key

/-- The body lines of a multiline field whose opening line `n` ends at `fin` and whose terminator follows the line feed at `stop`. -/
def mlBody (input : Str) (n fin stop : Nat) : List (Nat × Nat × Nat) :=
  if stop = fin then [] else place (n + 1) (fin + 1) (splitNl ((input.take stop).drop (fin + 1)))

/-- The instructions of an input. -/
inductive Trace (input : Str) : Nat → Nat → List Event → Ending → Prop where
  | done {i n} : input.length ≤ i → Trace input i n [] (.finished n)
  | bad {i n} : i < input.length → scan i (input.drop i) = none → Trace input i n [] (.invalid n i)
  | line {i n t es r} : i < input.length → scan i (input.drop i) = some t → oneLine t →
      Trace input (t.fin + 1) (n + 1) es r → Trace input i n (.line n i t :: es) r
  | multi {i n fin op key T es r} : i < input.length → scan i (input.drop i) = some ⟨fin, .multiline op key⟩ →
      findTerminator op.text key.text fin (input.drop fin) = some T →
      Trace input (T.fin + 1) (n + (mlBody input n fin T.start).length + 2) es r →
      Trace input i n (.multi n i fin op key (mlBody input n fin T.start) T :: es) r
  | unterminated {i n fin op key} : i < input.length → scan i (input.drop i) = some ⟨fin, .multiline op key⟩ →
      findTerminator op.text key.text fin (input.drop fin) = none →
      Trace input i n [] (.unterminated n i fin op key)

end Eno.Spec
