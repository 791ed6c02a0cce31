import Verif.Errors

/-! # Specification: the validation errors that can be asked for -/

namespace Eno.Spec

/-- What there is to complain about. -/
inductive Complaint where
  | comment (message : Str) (r : Ref)
  | element (message : Str) (r : Ref)
  | key (message : Str) (r : Ref)
  | value (message : Str) (r : Ref)
  | missingComment (r : Ref)
  | missingValue (r : Ref)
  | missingElement (key : Option Str) (parent : Nat) (message : MsgName)
  | unexpected (message : Option Str) (r : Ref)
  | several (key : Option Str) (rs : List Ref) (message : MsgName)
  | wrongType (key : Option Str) (r : Ref) (message : MsgName)

/-- The error for it. -/
def Complaint.raise (o : Options) (ctx : Ctx) : Complaint → Except PyExc ErrObj
  | .comment m r => commentError o ctx m r
  | .element m r => elementError o ctx m r
  | .key m r => keyError o ctx m r
  | .value m r => valueError o ctx m r
  | .missingComment r => Eno.missingComment o ctx r
  | .missingValue r => Eno.missingValue o ctx r
  | .missingElement k p n => Eno.missingElement o ctx k p n
  | .unexpected m r => unexpectedElement o ctx m r
  | .several k rs n => unexpectedMultipleElements o ctx k rs n
  | .wrongType k r n => unexpectedElementType o ctx k r n

end Eno.Spec
