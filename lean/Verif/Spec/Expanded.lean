import Verif.Spec.Copied

/-! # Specification: what can be shown of documents without copies -/

namespace Eno.Spec

/-- The type that is shown. -/
def rawType : Raw → Ty
  | .leaf t _ _ _ => t
  | .node t _ _ _ => t

/-- Wherever there are sections, they come after everything else. -/
inductive Orderly : Raw → Prop where
  | leaf {t c k v} : Orderly (.leaf t c k v)
  | node {t c k a b} : (∀ x ∈ a, rawType x ≠ .section) → (∀ x ∈ b, rawType x = .section) → (∀ x ∈ a ++ b, Orderly x) → Orderly (.node t c k (a ++ b))

/-- Not a copy of a section. -/
def Node.NoSectionCopy : Node → Prop
  | .thing _ => True
  | .part p => p.template = none

end Eno.Spec
