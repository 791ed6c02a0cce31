import Verif.Spec.Line
import Verif.Spec.Forms

/-!
# Specification: what the lines of a text say

`Says s es r` says: the text `s` consists of lines that say `es`, and reading ends with `r`. There are no offsets and no line numbers in it, and nothing about how a
line is indented, how much white space is between its parts, and whether its key is escaped.
-/

namespace Eno.Spec

/-- What a line (or a whole multiline field) says. The text of a comment comes with its column, since comments of several lines are dedented together. -/
inductive Said where
  | line (l : Line)
  | comment (text : Option (Nat × Str))
  | multi (key : Str) (text : Option Str)
deriving DecidableEq, Repr

/-- The column of the text of a comment: white space, `>`, white space. -/
def column (s : Str) : Nat := (s.takeWhile isHs).length + 1 + (((s.dropWhile isHs).drop 1).takeWhile isHs).length

/-- What the first line of `s` says, which reads as given. -/
def saidOf (s : Str) : Line → Said
  | .comment text => .comment (text.map fun t => (column s, t))
  | l => .line l

/-- How reading ends: at the end of the text, at a line that is none, or in a multiline field without end, which has a key. -/
inductive Stop where
  | finished
  | invalid
  | unterminated (key : Str)
deriving DecidableEq, Repr

/-- A line of the text after a line feed, with what is before the line feed and what is behind the line. -/
structure LineIn (s before line after : Str) : Prop where
  text : s = before ++ '\n' :: (line ++ after)
  noNl : '\n' ∉ line
  eol : LineEnd after

/-- What the lines of a text say. -/
inductive Says : Str → List Said → Stop → Prop where
  | done : Says [] [] .finished
  | bad {s} : s ≠ [] → readLine s = none → Says s [] .invalid
  | line {s l rest es r} : s ≠ [] → readLine s = some (l, rest) → (∀ d k, l ≠ .multiline d k) → Says (rest.drop 1) es r → Says s (saidOf s l :: es) r
  | multi {s d key rest body line after es r} : s ≠ [] → readLine s = some (.multiline d key, rest) → LineIn rest body line after →
      IsTerminator (rep d '-') key line →
      (∀ body' line' after', LineIn rest body' line' after' → body'.length < body.length → ¬ IsTerminator (rep d '-') key line') →
      Says (after.drop 1) es r → Says s (.multi key (if body = [] then none else some (body.drop 1)) :: es) r
  | unterminated {s d key rest} : s ≠ [] → readLine s = some (.multiline d key, rest) →
      (∀ body line after, LineIn rest body line after → ¬ IsTerminator (rep d '-') key line) → Says s [] (.unterminated key)

/-- What the lines of a text say up to the line that begins with `b`. -/
inductive Reads (b : Str) : Str → List Said → Prop where
  | here : Reads b b []
  | line {s l rest es} : s ≠ [] → readLine s = some (l, rest) → (∀ d k, l ≠ .multiline d k) → Reads b (rest.drop 1) es → Reads b s (saidOf s l :: es)
  | multi {s d key rest body line after es} : s ≠ [] → readLine s = some (.multiline d key, rest) → LineIn rest body line after →
      IsTerminator (rep d '-') key line →
      (∀ body' line' after', LineIn rest body' line' after' → body'.length < body.length → ¬ IsTerminator (rep d '-') key line') →
      Reads b (after.drop 1) es → Reads b s (.multi key (if body = [] then none else some (body.drop 1)) :: es)

/-- A comment in front of these lines belongs to no element. -/
def leftAlone : List Said → Bool
  | [] => true
  | .comment _ :: es => leftAlone es
  | .line .empty :: _ => true
  | .line (.continuation ..) :: _ => true
  | _ => false

/-- Without blank lines and without comments that belong to no element. -/
def told : List Said → List Said
  | [] => []
  | .line .empty :: es => told es
  | .comment x :: es => if leftAlone es then told es else .comment x :: told es
  | e :: es => e :: told es

end Eno.Spec
