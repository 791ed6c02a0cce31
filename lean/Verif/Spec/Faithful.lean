import Verif.Spec.Structure

/-!
# Specification: where instructions lie and what their ranges denote
-/

namespace Eno.Spec

/-- The text between two offsets. -/
def slice (s : Str) (b e : Nat) : Str := (s.take e).drop b

/-- Line number, begin and end of an instruction. -/
abbrev Spot := Nat × Nat × Nat

/-- The spot of an instruction. -/
def spotOf (b : Base) : Spot := (b.line, b.span)

/-- One instruction lies completely before another one, on an earlier line. -/
def Before (x y : Spot) : Prop := x.1 < y.1 ∧ x.2.2 < y.2.1

/-- A stored text is the slice of the input at the range of that name. -/
def TextAt (input : Str) (b : Base) (n : RangeName) (t : Option Str) : Prop :=
  ∀ x, t = some x → ∃ r, b.range? n = some r ∧ slice input r.1 r.2 = x

/-- All ranges lie within the line range of the instruction and that one within the input. -/
structure RangesOk (input : Str) (b : Base) : Prop where
  line : b.range? .line = some b.span
  le : b.span.1 ≤ b.span.2
  inside : b.span.2 ≤ input.length
  within : ∀ n r, (n, r) ∈ b.ranges → b.span.1 ≤ r.1 ∧ r.1 ≤ r.2 ∧ r.2 ≤ b.span.2

end Eno.Spec

namespace Eno

/-- All instructions of an item or entry. -/
def Sub.bases (x : Sub) : List Base :=
  (x.comments.getD []).map Comment.toBase ++ x.toBase :: (x.continuations.getD []).map Cont.toBase

/-- All instructions of an element (not of the elements below it), in the order in which a reader of the result meets them. -/
def Elem.bases (e : Elem) : List Base :=
  (e.comments.getD []).map Comment.toBase ++ e.toBase :: (e.continuations.getD []).map Cont.toBase ++
    e.lines.getD [] ++ e.fin.toList ++ (e.items.getD []).flatMap Sub.bases ++ (e.entries.getD []).flatMap Sub.bases

/-- Every instruction of a document: those of its elements, then the loose comments. -/
def Ctx.instructions (ctx : Ctx) : List Base := ctx.heap.tail.flatMap Elem.bases ++ ctx.metas.map Meta.base

/-- Every comment of a document with what it is attached to (nothing: loose). -/
def Ctx.owners (ctx : Ctx) : List (List Comment × Spec.Piece) := ctx.heap.tail.flatMap Elem.owners

end Eno
