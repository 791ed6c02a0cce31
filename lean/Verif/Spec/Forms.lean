import Verif.Basic

/-!
# Documented line forms

Vocabulary for the round-trip properties: what padding, values and keys may look like. Independent of the
scanner and of the regular expressions.
-/

namespace Eno.Spec

/-- Only horizontal white space. -/
def Blank (w : Str) : Prop := ∀ c ∈ w, isHs c = true

instance (w : Str) : Decidable (Blank w) := inferInstanceAs (Decidable (∀ c ∈ w, isHs c = true))

/-- A non-empty text on one line that neither starts nor ends with white space. -/
structure Trimmed (v : Str) : Prop where
  oneLine : '\n' ∉ v
  head : ∃ c t, v = c :: t ∧ isHs c = false
  last : ∃ t c, v = t ++ [c] ∧ isHs c = false

/-- A key that can be written without backticks in front of `:`, `=` and `<`. -/
structure PlainKey (k : Str) : Prop extends Trimmed k where
  start : ∀ c t, k = c :: t → c ∉ ['>', '#', '-', '`', '\\', '|']
  noOp : ∀ c ∈ k, c ≠ ':' ∧ c ≠ '=' ∧ c ≠ '<'

/-- A key that can be written without backticks in a heading. -/
structure PlainHeadingKey (k : Str) : Prop extends Trimmed k where
  start : ∀ c t, k = c :: t → c ≠ '`'
  noOp : '<' ∉ k

/-- What may follow a line: nothing, or a line feed and further lines. -/
def LineEnd (r : Str) : Prop := r = [] ∨ ∃ t, r = '\n' :: t

/-- `n` copies of a character. -/
def rep (n : Nat) (c : Char) : Str := List.replicate n c

/-- A line that ends a multiline field: the same dashes and the same key with any horizontal white space around them (if the key begins
with a dash there must be some in between). -/
def IsTerminator (op key line : Str) : Prop :=
  ∃ p0 p1 p2, Blank p0 ∧ Blank p1 ∧ Blank p2 ∧ line = p0 ++ (op ++ (p1 ++ (key ++ p2))) ∧ (p1 = [] → key.head? ≠ some '-')

end Eno.Spec
