import Verif.Spec.Hazard

/-! # Calls that ask for what is not there, or come too early or too late -/

namespace Eno.El

/-- Why a call may not work in the state that the program is in. -/
inductive Misused (E : Env) (w : World) (o : Nat) : Method → Prop where
  /-- the class does not have the method -/
  | noMethod {m} : Offers (w.at o).cls m = false → Misused E w o m
  /-- complaints about the document itself, and its parent -/
  | document {m} : (w.at o).ref = .elem 0 → AboutItself m = true ∨ m = .parent → Misused E w o m
  /-- what `lookup` found: the parent of what was made of it, and how the document or an item prints -/
  | found : (w.at o).parent = none → Misused E w o .parent
  | foundKey : (w.at o).cls = .element → Misused E w o .repr
  /-- there is no comment, or no key, to complain about -/
  | noComment {m} : E.ctx.heap.comments (w.at o).ref = none → Misused E w o (.commentError m)
  | itemKey {m i k} : (w.at o).ref = .item i k → AboutKey m = true → Misused E w o m
  /-- the element was already yielded as something else -/
  | yielded {k k'} : (w.at o).yielded = some k' → k' ≠ k → Misused E w o (.to k)
  | yieldedIn {m k k' y} : (w.at y).parent = some o → (w.at y).yielded = some k' → k' ≠ k → YieldsAs k m = true → Misused E w o m
  /-- not everything was yielded, or touched -/
  | unyielded {b} : ¬ AllYielded E w o → Misused E w o (.allElementsRequired b)
  | untouched {m only skip ys y} : (w.at o).cls = .of .fieldset → (w.at o).children = some ys → y ∈ ys → (w.at y).touched = false → Misused E w o (.assertAllTouched m only skip)
  | unread {m only skip rs} : (w.at o).cls = .of .fieldset → (w.at o).children = none → Entries E (w.at o) rs → rs ≠ [] → Misused E w o (.assertAllTouched m only skip)

end Eno.El
