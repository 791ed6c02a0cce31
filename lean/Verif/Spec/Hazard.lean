import Verif.Spec.Access
import Verif.Spec.Marks
import Verif.Spec.Extent
import Verif.Spec.Programs

/-! # Specification: the Python exceptions that calls can end with -/

namespace Eno.El

open Spec

/-- Only these Python exceptions are raised. Errors of the library and rejected texts are something else. -/
def RaisesAt {α : Type} (P : PyExc → Prop) (m : Api α) (w : World) : Prop := ∀ x, (m w).1 = .error (.py x) → P x

/-- A function raises only these Python exceptions, in the worlds in question. -/
def Throws {α β : Type} (W : World → Prop) (P : PyExc → Prop) (f : α → Api β) : Prop := ∀ a w, W w → RaisesAt P (f a) w

/-- A text, or a function that raises only these. -/
def MsgArg.Throws {α : Type} (W : World → Prop) (P : PyExc → Prop) : MsgArg α → Prop
  | .text _ => True
  | .fn f => El.Throws W P f

/-- The functions among the arguments raise only these. -/
def Method.Throws (W : World → Prop) (P : PyExc → Prop) : Method → Prop
  | .comment _ f => El.Throws W P f
  | .commentError m => m.Throws W P
  | .error m => m.Throws W P
  | .key f => El.Throws W P f
  | .keyError m => m.Throws W P
  | .value _ f => El.Throws W P f
  | .valueError m => m.Throws W P
  | .values _ f => El.Throws W P f
  | .assertAllTouched (some m) _ _ => m.Throws W P
  | _ => True

/-- The methods that the classes have. `to_fieldset_entry` and `to_list_item` of `Element` are there, but never work. -/
def Offers : Cls → Method → Bool
  | _, .comment _ _ => true
  | _, .commentError _ => true
  | _, .error _ => true
  | _, .key _ => true
  | _, .keyError _ => true
  | _, .raw => true
  | _, .repr => true
  | _, .touch => true
  | c, .value _ _ => c = .of .field || c = .entry || c = .item
  | c, .valueError _ => c = .of .field || c = .entry || c = .item
  | c, .to _ => c = .sectionElement || c = .element
  | c, .yields _ => c = .sectionElement || c = .element
  | _, .toEntry => false
  | _, .toItem => false
  | c, .yieldsEntry => c = .element
  | c, .yieldsItem => c = .element
  | c, .items => c = .of .list
  | c, .length => c = .of .list
  | c, .values _ _ => c = .of .list
  | c, .entries _ => c = .of .fieldset
  | c, .entry _ _ => c = .of .fieldset
  | c, .allEntriesRequired _ => c = .of .fieldset
  | c, .assertAllTouched _ _ _ => c = .of .fieldset || c = .of .section
  | c, .one _ _ _ => c = .of .section
  | c, .many want _ => c = .of .section && want ≠ .kind .empty
  | c, .allElementsRequired _ => c = .of .section
  | c, .parent => !(c = .sectionElement || c = .element)

/-- Methods that complain about the element itself, or read its key. -/
def AboutItself : Method → Bool
  | .comment _ _ => true
  | .commentError _ => true
  | .error _ => true
  | .key _ => true
  | .keyError _ => true
  | .to _ => true
  | _ => false

/-- Methods that read the comment. -/
def ReadsComment : Method → Bool
  | .comment _ _ => true
  | .commentError (.fn _) => true
  | _ => false

/-- Methods that complain about the key. -/
def AboutKey : Method → Bool
  | .key _ => true
  | .keyError _ => true
  | _ => false

/-- Methods of sections that complain about what is in the section. -/
def AboutContent : Method → Bool
  | .one _ _ _ => true
  | .many _ _ => true
  | .assertAllTouched _ _ _ => true
  | _ => false

/-- Methods that yield elements of a section as a kind that can be yielded only once. -/
def YieldsAs (k : Kind) : Method → Bool
  | .one (.kind k') _ _ => k' = k && k ≠ .section
  | .many (.kind k') _ => k' = k && k ≠ .section
  | _ => false

/-- Why calling a method on an object may end with a Python exception that is not an error of the library. -/
inductive Hazard (E : Env) (w : World) (o : Nat) : Method → PyExc → Prop where
  /-- the class does not have the method -/
  | noMethod {m} : Offers (w.at o).cls m = false → Hazard E w o m .attributeError
  /-- nothing can be said about the document itself -/
  | document {m} : (w.at o).ref = .elem 0 → AboutItself m = true → Hazard E w o m .keyError
  /-- the parent of the document -/
  | documentParent : (w.at o).ref = .elem 0 → (w.at o).cls = .of .section → Hazard E w o .parent .keyError
  /-- empty, field: the parent of what was made of an element that `lookup` found -/
  | foundParent {k} : (w.at o).cls = .of k → k ≠ .section → k ≠ .fieldset → k ≠ .list → (w.at o).parent = none → Hazard E w o .parent .attributeError
  /-- the comment is one empty comment line (C22) -/
  | blank {m} : ¬ Readable (E.ctx.heap.comments (w.at o).ref) → ReadsComment m = true → Hazard E w o m .keyError
  /-- there is no comment to complain about -/
  | noComment {m} : E.ctx.heap.comments (w.at o).ref = none → Hazard E w o (.commentError m) .keyError
  /-- items have no key to complain about -/
  | itemKey {m i k} : (w.at o).ref = .item i k → AboutKey m = true → Hazard E w o m .keyError
  /-- `repr` of an `Element` that stands for the document or for an item (C77) -/
  | noKey : (w.at o).cls = .element → (w.at o).ref = .elem 0 ∨ (∃ i k, (w.at o).ref = .item i k) → Hazard E w o .repr .keyError
  /-- the reporter gets stuck in a section (C40) -/
  | stuck {m} : RefStuck E.ctx.heap (w.at o).ref → Hazard E w o (.error m) .typeError
  | stuckTo {k} : RefStuck E.ctx.heap (w.at o).ref → k.fits (E.ctx.heap.type (w.at o).ref) = false → Hazard E w o (.to k) .typeError
  | stuckIn {m i} : (w.at o).cls = .of .section → Stuck E.ctx.heap i → AboutContent m = true → Hazard E w o m .typeError
  /-- the element was already yielded as something else -/
  | yielded {k k'} : (w.at o).yielded = some k' → k' ≠ k → k ≠ .section → Hazard E w o (.to k) .typeError
  | yieldedIn {m k k' y} : (w.at o).cls = .of .section → (w.at y).parent = some o → (w.at y).cls = .sectionElement → (w.at y).yielded = some k' → k' ≠ k → YieldsAs k m = true →
      Hazard E w o m .typeError
  /-- `all_elements_required` meets a section or a fieldset that was not yielded (C63) -/
  | unyielded {b} : (w.at o).cls = .of .section → ¬ AllYielded E w o → Hazard E w o (.allElementsRequired b) .attributeError
  /-- `assert_all_touched` of a fieldset with an entry that was not touched (C46) -/
  | untouched {m only skip ys y} : (w.at o).cls = .of .fieldset → (w.at o).children = some ys → y ∈ ys → (w.at y).touched = false → Hazard E w o (.assertAllTouched m only skip) .typeError
  | unread {m only skip rs} : (w.at o).cls = .of .fieldset → (w.at o).children = none → Entries E (w.at o) rs → rs ≠ [] → Hazard E w o (.assertAllTouched m only skip) .typeError
  /-- `raw` of sections that copy and of empty comments (C22, C35); nothing is said here about how deep it recurses -/
  | raw {x} : x = .keyError ∨ x = .typeError ∨ x = .recursionError → Hazard E w o .raw x

/-- The section that something is missing in. -/
def Missing.section : Missing → Nat
  | .inside p _ _ => p.section
  | .under s _ _ => s

/-- The methods that the classes of missing elements have. -/
def MissingOffers (want : Option Want) : Method → Bool
  | .comment _ _ => true
  | .key _ => true
  | .raw => true
  | .repr => true
  | .value _ _ => want = none || want = some (.kind .field)
  | .to _ => want = some .any
  | .yields _ => want = some .any
  | .items => want = some (.kind .list)
  | .values _ _ => want = some (.kind .list)
  | .entries _ => want = some (.kind .fieldset)
  | .entry _ _ => want = some (.kind .fieldset)
  | .one _ _ _ => want = some (.kind .section)
  | .many k _ => want = some (.kind .section) && k ≠ .kind .empty
  | _ => false

/-- Why calling a method of a missing element may end with a Python exception that is not an error of the library. -/
inductive MissingHazard (E : Env) (w : World) (x : Missing) : Method → PyExc → Prop where
  /-- the class does not have the method -/
  | noMethod {m} : MissingOffers x.want m = false → MissingHazard E w x m .attributeError
  /-- the reporter gets stuck in the section (C40) -/
  | stuck {m i} : (w.at x.section).ref = .elem i → (E.ctx.heap.at i).type = .section → StuckAbove E.ctx.heap i → MissingHazard E w x m .typeError

end Eno.El
