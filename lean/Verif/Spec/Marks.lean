import Verif.Spec.Access

/-!
# Specification: what is in an object
-/

namespace Eno.El

/-- `z` is `o`, or was made of an element of a section that is in `o`. -/
inductive Within (w : World) (o : Nat) : Nat → Prop where
  | self : Within w o o
  | made {s ys y k z} : Within w o s → (w.at s).cls = .of .section → (w.at s).children = some ys → y ∈ ys → (w.at y).made k = some z → Within w o z

/-- Something that is in `o`, or an item or entry of it. -/
def Inside (w : World) (o p : Nat) : Prop :=
  Within w o p ∨ ∃ z ys, Within w o z ∧ ((w.at z).cls = .of .list ∨ (w.at z).cls = .of .fieldset) ∧ (w.at z).children = some ys ∧ p ∈ ys

/-- The element is a section or fieldset. -/
def IsGroup (t : Ty) : Prop := t = .section ∨ t = .fieldset

/-- `all_elements_required` concerns the object itself and the sections and fieldsets in it. It does not concern fieldsets that were made of empty elements. -/
def Required (E : Env) (w : World) (o q : Nat) : Prop := Within w o q ∧ (q = o ∨ IsGroup (E.ctx.heap.type (w.at q).ref))

/-- All sections and fieldsets in `o` were yielded. -/
def AllYielded (E : Env) (w : World) (o : Nat) : Prop :=
  ∀ s xs, Within w o s → (w.at s).cls = .of .section → Elements E (w.at s) xs → ∀ i ∈ xs, IsGroup (E.ctx.heap.at i).type → (∃ y, ObjectFor w s i y) ∧ ∀ y, ObjectFor w s i y → (w.at y).yielded ≠ none

/-- The entries with a key; no key and the empty key stand for all of them. -/
def entriesWithKey (h : Heap) (key : Option Str) (rs : List Ref) : List Ref :=
  match key with
  | none | some [] => rs
  | some k => rs.filter fun r => (h.sub? r).bind (·.key) = some k

/-- The error is returned, or what making it raises is raised. -/
def returned : Except PyExc ErrObj → Except Exc Val
  | .ok e => .ok (.error e)
  | .error e => .error (.py e)

/-- A text is used as it is, a function is called once with `a`; then the error with that message is returned. -/
def withMessage {α} (err : Str → Except PyExc ErrObj) (m : MsgArg α) (a : α) (w : World) : Except Exc Val × World :=
  match m with
  | .text s => (returned (err s), w)
  | .fn f =>
    match f a w with
    | (.ok s, w1) => (returned (err s), w1)
    | (.error e, w1) => (.error e, w1)

/-- The world in which a message is obtained: `w`, or `w1` if a function makes it, which needs its argument to be read before. -/
def worldFor {α} (m : MsgArg α) (w w1 : World) : World := match m with
  | .text _ => w
  | .fn _ => w1

theorem worldFor_same {α} {m : MsgArg α} {w : World} : worldFor m w w = w := by cases m <;> rfl

end Eno.El
