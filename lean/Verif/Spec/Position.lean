import Verif.Lookup

/-! # Specification: what is written where -/

namespace Eno.Spec

/-- The instruction that `r` is written with is `b`. -/
inductive FirstLine (h : Heap) : Ref → Base → Prop where
  | elem {i} : 0 < i → i < h.length → FirstLine h (.elem i) (h.at i).toBase
  | item {i k xs x} : i < h.length → (h.at i).items = some xs → xs[k]? = some x → FirstLine h (.item i k) x.toBase
  | entry {i k xs x} : i < h.length → (h.at i).entries = some xs → xs[k]? = some x → FirstLine h (.entry i k) x.toBase

/-- The instruction `b` continues `r`: a continuation, or a line or the end of a multiline field. Continuations of the last item of a list and of the
last entry of a fieldset are left out. -/
inductive FurtherLine (h : Heap) : Ref → Base → Prop where
  | cont {i cs c} : i < h.length → (h.at i).continuations = some cs → c ∈ cs → FurtherLine h (.elem i) c.toBase
  | line {i ls b} : i < h.length → (h.at i).lines = some ls → b ∈ ls → FurtherLine h (.elem i) b
  | fin {i b} : i < h.length → (h.at i).fin = some b → FurtherLine h (.elem i) b
  | item {i k xs x cs c} : i < h.length → (h.at i).items = some xs → xs[k]? = some x → k + 1 < xs.length → x.continuations = some cs → c ∈ cs →
      FurtherLine h (.item i k) c.toBase
  | entry {i k xs x cs c} : i < h.length → (h.at i).entries = some xs → xs[k]? = some x → k + 1 < xs.length → x.continuations = some cs → c ∈ cs →
      FurtherLine h (.entry i k) c.toBase

/-- What is at `index` among the ranges of an instruction: a range that contains it, one that begins there if possible; nothing only if no range does.
The range of the whole line does not count. -/
def RangeAt (rs : Ranges) (index : Int) : Option RangeName → Prop
  | none => ∀ n r, (n, r) ∈ rs → n ≠ .line → ¬ ((r.1 : Int) ≤ index ∧ index ≤ r.2)
  | some n => n ≠ .line ∧ ∃ r, (n, r) ∈ rs ∧ (r.1 : Int) ≤ index ∧ index ≤ r.2 ∧
      ((∃ n' r', (n', r') ∈ rs ∧ n' ≠ .line ∧ (r'.1 : Int) = index ∧ index ≤ r'.2) → (r.1 : Int) = index)

/-- The last element that begins at or before `n`, counted in lines or in characters; 0 (the document) if there is none. -/
structure LastBefore (begins : Base → Nat) (h : Heap) (n e : Nat) : Prop where
  lt : e < h.length
  le : e ≠ 0 → begins (h.at e).toBase ≤ n
  last : ∀ j, e < j → j < h.length → n < begins (h.at j).toBase

end Eno.Spec

namespace Eno

/-- The instructions that an item or entry is written with, without comments. -/
def Sub.rows (x : Sub) : List Base := x.toBase :: (x.continuations.getD []).map Cont.toBase

/-- The instructions that an element is written with, without comments. -/
def Elem.rows (e : Elem) : List Base :=
  e.toBase :: (e.continuations.getD []).map Cont.toBase ++ e.lines.getD [] ++ e.fin.toList ++ (e.items.getD []).flatMap Sub.rows ++
    (e.entries.getD []).flatMap Sub.rows

end Eno
