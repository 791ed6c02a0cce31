import Verif.Register

/-!
# What registering loaders should do

Independent of how `register` goes about it: the names of the methods, and which function was last registered under a name.
-/

namespace Eno.El

/-- The name of the method for the loader registered as `n`. -/
def Accessor.called (n : Str) : Accessor → Str
  | .key => n ++ chars!"_key"
  | .comment required => (if required then chars!"required_" else chars!"optional_") ++ n ++ chars!"_comment"
  | .value required => (if required then chars!"required_" else chars!"optional_") ++ n ++ chars!"_value"
  | .values required => (if required then chars!"required_" else chars!"optional_") ++ n ++ chars!"_values"

/-- The names and functions that an argument gives. -/
def Definition.pairs {F} : Definition F → List (Str × F)
  | .function name f => [(name, f)]
  | .dict items => items

/-- The names and functions of a sequence of calls of `register`, in order. -/
def registrations {F} (h : List (Registration F)) : List (Str × F) := h.flatMap fun r => r.positional.flatMap Definition.pairs ++ r.named

/-- The function that was registered last under a name. -/
def latest {F} (h : List (Registration F)) (n : Str) : Option F := ((registrations h).filter fun d => d.1 = n).getLast?.map (·.2)

/-- The classes after a sequence of calls of `register`. -/
def afterwards {F} (h : List (Registration F)) : Registry F := h.foldl register []

end Eno.El
