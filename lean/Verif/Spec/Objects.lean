import Verif.Calls

/-!
# Specification: objects over time
-/

namespace Eno.El

/-- What never changes about an object, or only once: class, instruction, parent; being touched; the children; what it was yielded as. -/
structure Obj.Later (x y : Obj) : Prop where
  cls : y.cls = x.cls
  ref : y.ref = x.ref
  parent : y.parent = x.parent
  touched : x.touched = true → y.touched = true
  children : ∀ ys, x.children = some ys → y.children = some ys ∧ y.index = x.index
  made : ∀ k o, x.made k = some o → y.made k = some o
  yielded : ∀ k, x.yielded = some k → y.yielded = some k

/-- All objects are still there. -/
structure Later (w w' : World) : Prop where
  len : w.objs.length ≤ w'.objs.length
  obj : ∀ o, o < w.objs.length → (w.at o).Later (w'.at o)

/-- `o` is an object. -/
def Known (w : World) (o : Nat) : Prop := o < w.objs.length

/-- `o` is an object of the class. -/
def IsA (w : World) (o : Nat) (c : Cls) : Prop := o < w.objs.length ∧ (w.at o).cls = c

/-! ## Touching -/

/-- There is nothing in the list, fieldset or section of which an object is made. -/
def Hollow (E : Env) (x : Obj) : Prop :=
  match x.cls with
  | .of .section => (madeElements E.ctx.heap E.depth x.ref.idx []).2 = []
  | .of .list => instItems E.ctx.heap E.depth x.ref.idx = .ok []
  | .of .fieldset => ∃ is, instEntries E.ctx.heap E.depth x.ref.idx [] = .ok (is, [])
  | _ => True

/-- The object and everything in it was touched: the items of a list, the entries of a fieldset, and of each element of a section something that was made of it. -/
inductive Used (E : Env) (w : World) : Nat → Prop where
  | leaf {o} : (w.at o).cls = .of .empty ∨ (w.at o).cls = .of .field → (w.at o).touched = true → Used E w o
  | many {o} : (w.at o).cls = .of .list ∨ (w.at o).cls = .of .fieldset → (w.at o).touched = true → ((w.at o).children = none → Hollow E (w.at o)) →
      (∀ ys, (w.at o).children = some ys → ∀ y ∈ ys, (w.at y).touched = true) → Used E w o
  | section {o} : (w.at o).cls = .of .section → (w.at o).touched = true → ((w.at o).children = none → Hollow E (w.at o)) →
      (kind : Nat → Kind) → (made : Nat → Nat) →
      (∀ ys, (w.at o).children = some ys → ∀ y ∈ ys, (w.at y).made (kind y) = some (made y)) →
      (∀ ys, (w.at o).children = some ys → ∀ y ∈ ys, Used E w (made y)) → Used E w o

/-- Something was made of an element, and it was touched with everything in it. -/
def UsedElement (E : Env) (w : World) (o : Nat) : Prop := ∃ k y, (w.at o).made k = some y ∧ Used E w y

mutual

/-- `r` belongs to an object, or to something in it, that was not touched. -/
inductive Unused (w : World) : Nat → Ref → Prop where
  | self {o} : (w.at o).touched = false → Unused w o (w.at o).ref
  | part {o ys y} : (w.at o).cls = .of .list ∨ (w.at o).cls = .of .fieldset → (w.at o).children = some ys → y ∈ ys → (w.at y).touched = false → Unused w o (w.at y).ref
  | inside {o ys y r} : (w.at o).cls = .of .section → (w.at o).children = some ys → y ∈ ys → UnusedElement w y r → Unused w o r

/-- The same for an element, of which possibly nothing was made. -/
inductive UnusedElement (w : World) : Nat → Ref → Prop where
  | self {o} : (∀ k, (w.at o).made k = none) → UnusedElement w o (w.at o).ref
  | made {o k y r} : (w.at o).made k = some y → Unused w y r → UnusedElement w o r

end

end Eno.El
