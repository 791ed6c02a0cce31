import Verif.Spec.Programs

/-!
# Specification: programs that do not read comments

Such a program calls neither `raw` nor a method about comments (`string_comment`, `comment_error` and their variants), on no object and in no function that it passes. On missing elements
it can call everything.
-/

namespace Eno.El

mutual
/-- The program does not read comments. -/
def Program.Aside : Program → Prop
  | .call _ m next => m.Aside ∧ ∀ r, (next r).Aside
  | .missing _ _ next => ∀ r, (next r).Aside
  | _ => True

/-- The call does not read comments. -/
def Act.Aside : Act → Prop
  | .raw => False
  | .comment _ _ => False
  | .commentError _ => False
  | .commentErrorBy _ => False
  | .key f => ∀ s, (f s).Aside
  | .value _ f => ∀ s, (f s).Aside
  | .values _ f => ∀ s, (f s).Aside
  | .assertAllTouchedBy f _ _ => ∀ y, (f y).Aside
  | .errorBy f => ∀ y, (f y).Aside
  | .keyErrorBy f => ∀ s, (f s).Aside
  | .valueErrorBy f => ∀ s, (f s).Aside
  | _ => True
end

end Eno.El
