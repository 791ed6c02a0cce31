import Verif.Spec.Extent
import Verif.Spec.Objects
import Verif.Spec.Faithful
import Verif.Spec.ErrorKinds
import Verif.Errors

/-! # Specification: errors about several elements -/

namespace Eno.Spec

/-- The first and the last lines of elements, items and entries. -/
inductive Spans (h : Heap) : List Ref → List (Nat × Nat) → Prop where
  | nil : Spans h [] []
  | cons {r b L rs ps} : FirstLine h r b → RefEnds h r L → Spans h rs ps → Spans h (r :: rs) ((b.line, L) :: ps)

/-- Line `k` is the first line of one of them, and no later one goes on over it. -/
def BeginsAt (ps : List (Nat × Nat)) (k : Nat) : Prop :=
  ∃ pre p post, ps = pre ++ p :: post ∧ k = p.1 ∧ ∀ q ∈ post, ¬ (q.1 < k ∧ k ≤ q.2)

/-- One of them goes on over line `k`, and no later one begins there. -/
def GoesOver (ps : List (Nat × Nat)) (k : Nat) : Prop :=
  ∃ pre p post, ps = pre ++ p :: post ∧ (p.1 < k ∧ k ≤ p.2) ∧ ∀ q ∈ post, q.1 ≠ k

/-- A plain text snippet in which nothing is emphasised, line `n` is indicated and the other lines before `m` are indicated or questioned, and no others. Every line is shown or in a gap. -/
def MissingShown (o : Options) (lines : Nat) (out : Str) (n m : Nat) : Prop :=
  ∃ rows, out = plainSnippet o rows ∧ Accounts lines 1 rows ∧ (∀ k t, SnipRow.line .emphasis k t ∉ rows) ∧ (∃ t, SnipRow.line .indication (n + 1) t ∈ rows) ∧
    ∀ k, ((∃ t, SnipRow.line .indication (k + 1) t ∈ rows) ∨ ∃ t, SnipRow.line .question (k + 1) t ∈ rows) ↔ n ≤ k ∧ k < m

/-- A plain text snippet in which every line is shown and questioned. -/
def AllQuestioned (o : Options) (lines : Nat) (out : Str) : Prop :=
  ∃ rows, out = plainSnippet o rows ∧ Accounts lines 1 rows ∧ (∀ m k t, SnipRow.line m k t ∈ rows → m = .question) ∧ ∀ k, (∃ t, SnipRow.line .question (k + 1) t ∈ rows) ↔ k < lines

end Eno.Spec
