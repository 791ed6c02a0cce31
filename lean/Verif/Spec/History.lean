import Verif.Lookup
import Verif.Spec.Objects

/-!
# Specification: what programs can do

A program calls methods on objects. The functions that it passes (loaders, and functions that make messages) do the same when they are called, to any depth.
-/

namespace Eno.El

/-- What the function does leads from one world to another as `R` says. -/
def Fair {α β : Type} (R : World → World → Prop) (f : α → Api β) : Prop := ∀ a w, R w (f a w).2

/-- A text or a fair function. -/
def MsgArg.Fair {α : Type} (R : World → World → Prop) : MsgArg α → Prop
  | .text _ => True
  | .fn f => El.Fair R f

/-- The arguments are fair. -/
def Method.Fair (R : World → World → Prop) : Method → Prop
  | .comment _ f => El.Fair R f
  | .commentError m => m.Fair R
  | .error m => m.Fair R
  | .key f => El.Fair R f
  | .keyError m => m.Fair R
  | .value _ f => El.Fair R f
  | .valueError m => m.Fair R
  | .values _ f => El.Fair R f
  | .assertAllTouched (some m) _ _ => m.Fair R
  | _ => True

/-- Any number of calls, of any method on any object, whether they raise or not, with functions that do what `R` says. -/
inductive Calls (E : Env) (R : World → World → Prop) : World → World → Prop where
  | done {w} : Calls E R w w
  | call {w w'} (o : Nat) (m : Method) : Calls E R w w' → m.Fair R → Calls E R w (run E o m w').2

/-- Any number of calls with functions that again make calls, `n` levels deep. -/
def Steps (E : Env) : Nat → World → World → Prop
  | 0 => Calls E Eq
  | n + 1 => Calls E (Steps E n)

/-- What a program can turn a world into. -/
def Leads (E : Env) (w w' : World) : Prop := ∃ n, Steps E n w w'

/-- What a program starts with: the document that `parse` returns, or the element that `lookup` returns. -/
inductive Begun (E : Env) : World → Prop where
  | parsed : Begun E World.start
  | found {line column index : Option Int} {r : LookupResult} : lookup E.ctx.input line column index = .ok r → Begun E (World.found r.element)

/-- What a program can turn the document that `parse` returns into. -/
def AfterParse (E : Env) (w : World) : Prop := Leads E World.start w

/-- What a program can turn what it starts with into. -/
def Reach (E : Env) (w : World) : Prop := ∃ w0, Begun E w0 ∧ Leads E w0 w

end Eno.El
