import Verif.Errors
import Verif.Spec.Structure
import Verif.Spec.Copies
import Verif.Spec.Faithful
import Verif.Spec.Snippet

/-! # Specification: what parse errors say -/

namespace Eno.Spec

/-- A line with a key whose escape sequence is not closed: after white space and hash signs there are backticks, which are not all that follows and do not occur again. `n` characters
are before and in the backticks. -/
def Unclosed (line : Str) (n : Nat) : Prop :=
  ∃ a h b q rest, line = a ++ (h ++ (b ++ (q ++ rest))) ∧ (∀ c ∈ a, isSp c = true) ∧ (∀ c ∈ h, c = '#') ∧ (∀ c ∈ b, isSp c = true) ∧ q ≠ [] ∧ (∀ c ∈ q, c = '`') ∧
    rest ≠ [] ∧ rest.head? ≠ some '`' ∧ ¬ q <:+: rest ∧ n = a.length + h.length + b.length + q.length

/-- The line that begins at an offset. -/
def lineFrom (input : Str) (i : Nat) : Str := lineOf (input.drop i)

/-- From `i` to `j` on line `n`, which begins at `b`. -/
def onLine (n b i j : Nat) : Selection := ⟨⟨(i : Int) - b, i, n⟩, ⟨(j : Int) - b, j, n⟩⟩

/-- The whole line of an instruction. -/
def wholeLine (b : Base) : Selection := onLine b.line b.span.1 b.span.1 b.span.2

/-- The line of the last heading. -/
def headingLine (es : List Event) : Option Nat := (es.filterMap fun e => match e.role with | .heading _ => some e.at.1 | _ => none).getLast?

/-- No lines. -/
abbrev noLine : Nat → Prop := fun _ => False

/-- The marks in a plain text snippet: which lines (counted from zero) are emphasised, indicated and questioned. -/
def TextMarks (o : Options) (out : Str) (em ind ques : Nat → Prop) : Prop :=
  ∃ rows, out = plainSnippet o rows ∧ ∀ n, ((∃ t, SnipRow.line .emphasis (n + 1) t ∈ rows) ↔ em n) ∧ ((∃ t, SnipRow.line .indication (n + 1) t ∈ rows) ↔ ind n) ∧
    ((∃ t, SnipRow.line .question (n + 1) t ∈ rows) ↔ ques n)

/-- What a message says about an input, what is selected with it, and which other lines are indicated and questioned. -/
inductive Explains (input : Str) : Msg → Selection → (Nat → Prop) → (Nat → Prop) → Prop where
  /-- an item where none may be -/
  | item {pre ev post r} : Trace input 0 0 (pre ++ ev :: post) r → AllLegal pre → ¬ Legal pre ev → ev.role = .item →
      Explains input (.missingListForListItem (ev.at.1 + 1)) (onLine ev.at.1 ev.at.2 ev.at.2 (ev.at.2 + (lineFrom input ev.at.2).length)) noLine noLine
  /-- an entry where none may be -/
  | entry {pre ev post r} : Trace input 0 0 (pre ++ ev :: post) r → AllLegal pre → ¬ Legal pre ev → ev.role = .entry →
      Explains input (.missingFieldsetForFieldsetEntry (ev.at.1 + 1)) (onLine ev.at.1 ev.at.2 ev.at.2 (ev.at.2 + (lineFrom input ev.at.2).length)) noLine noLine
  /-- a continuation where none may be -/
  | continuation {pre ev post r} : Trace input 0 0 (pre ++ ev :: post) r → AllLegal pre → ¬ Legal pre ev → ev.role = .continuation →
      Explains input (.missingElementForContinuation (ev.at.1 + 1)) (onLine ev.at.1 ev.at.2 ev.at.2 (ev.at.2 + (lineFrom input ev.at.2).length)) noLine noLine
  /-- a heading that is too deep; the last heading before it is indicated -/
  | heading {pre ev post r d} : Trace input 0 0 (pre ++ ev :: post) r → AllLegal pre → ev.role = .heading d → depthOf pre + 1 < d →
      Explains input (.sectionHierarchyLayerSkip (ev.at.1 + 1)) (onLine ev.at.1 ev.at.2 ev.at.2 (ev.at.2 + (lineFrom input ev.at.2).length)) (headingLine pre = some ·) noLine
  /-- a line that is nothing -/
  | invalid {es n i} : Trace input 0 0 es (.invalid n i) → AllLegal es → (∀ k, ¬ Unclosed (lineFrom input i) k) →
      Explains input (.invalidLine (n + 1)) (onLine n i i (i + (lineFrom input i).length)) noLine noLine
  /-- a line that is nothing because its key is not closed; the selection begins behind the backticks -/
  | unclosed {es n i k} : Trace input 0 0 es (.invalid n i) → AllLegal es → Unclosed (lineFrom input i) k →
      Explains input (.unterminatedEscapedKey (n + 1)) (onLine n i (i + k) (i + (lineFrom input i).length)) noLine noLine
  /-- a multiline field without end; all lines after it are indicated (one that is not there, if it is on the last line) -/
  | multiline {es n i fin op key} : Trace input 0 0 es (.unterminated n i fin op key) → AllLegal es →
      Explains input (.unterminatedMultilineField key.text (n + 1)) (onLine n i i fin) (fun m => n < m ∧ m ≤ n + (splitNl (input.drop (fin + 1))).length) noLine
  /-- a copy of something of which there are several; two of them are questioned -/
  | ambiguous {ctx sec k i a b} : analyze input = .ok ctx → i ∈ copiers ctx.heap sec k → a ∈ candidates ctx.heap sec k → b ∈ candidates ctx.heap sec k → a ≠ b →
      Explains input (.twoOrMoreTemplatesFound k) (wholeLine (ctx.heap.at i).toBase) noLine (fun n => n = (ctx.heap.at a).line ∨ n = (ctx.heap.at b).line)
  /-- a copy of an element that is not there -/
  | noElement {ctx k i} : analyze input = .ok ctx → i ∈ copiers ctx.heap false k → candidates ctx.heap false k = [] →
      Explains input (.nonSectionElementNotFound ((ctx.heap.at i).line + 1) k) (wholeLine (ctx.heap.at i).toBase) noLine noLine
  /-- a copy of a section that is not there -/
  | noSection {ctx k i} : analyze input = .ok ctx → i ∈ copiers ctx.heap true k → candidates ctx.heap true k = [] →
      Explains input (.sectionNotFound ((ctx.heap.at i).line + 1) k) (wholeLine (ctx.heap.at i).toBase) noLine noLine
  /-- an element or section that is copied into itself; its template is selected, others that are copied into themselves are indicated -/
  | cyclic {ctx sec k i p} {chain : List Nat} : analyze input = .ok ctx → i ∈ copiers ctx.heap sec k → i ∈ chain → (∀ j ∈ chain, if sec then DepLeads ctx.heap j j else Leads ctx.heap j j) →
      (RangeName.template, p) ∈ (ctx.heap.at i).ranges → slice input p.1 p.2 = k →
      Explains input (.cyclicDependency ((ctx.heap.at i).line + 1) k) (onLine (ctx.heap.at i).line (ctx.heap.at i).span.1 p.1 p.2) (fun n => ∃ j ∈ chain, j ≠ i ∧ n = (ctx.heap.at j).line) noLine
  /-- a copy whose own items do not go with its template; the first is selected -/
  | ownItem {ctx i x xs} : analyze input = .ok ctx → Incompatible ctx.heap i → (ctx.heap.at i).items = some (x :: xs) →
      Explains input (.missingListForListItem (x.line + 1)) (wholeLine x.toBase) noLine noLine
  /-- a copy whose own entries do not go with its template; the first is selected -/
  | ownEntry {ctx i x xs} : analyze input = .ok ctx → Incompatible ctx.heap i → (ctx.heap.at i).entries = some (x :: xs) →
      Explains input (.missingFieldsetForFieldsetEntry (x.line + 1)) (wholeLine x.toBase) noLine noLine

end Eno.Spec
