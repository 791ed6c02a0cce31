import Verif.Spec.Gist
import Verif.Spec.Sayings

/-!
# Specification: documents that are the same apart from comments
-/

namespace Eno.Spec

/-- What lines say without blank lines and comments. -/
def wordless : List Said → List Said
  | [] => []
  | .line .empty :: es => wordless es
  | .comment _ :: es => wordless es
  | e :: es => e :: wordless es

mutual

/-- Raw output without comments. -/
def uncommented : Raw → Raw
  | .leaf t _ k v => .leaf t none k v
  | .node t _ k l => .node t none k (uncommentedAll l)

def uncommentedAll : List Raw → List Raw
  | [] => []
  | x :: l => uncommented x :: uncommentedAll l

end

/-- Questions that are not about comments. -/
def aside : Query → Bool
  | .comment _ => false
  | .raw _ => false
  | _ => true

/-- The results of parsing two texts: two documents of the same elements which answer each question that is not about comments in the same way and whose raw output, where both have
one, is the same apart from comments, or two errors with the same message, or the same exception. -/
inductive SameAside (i i' : Str) : Except Raised Ctx → Except Raised Ctx → Prop where
  | documents {c c' : Ctx} : c'.heap.length = c.heap.length →
      (∀ q fuel cache, aside q = true → Query.run i' c'.heap fuel q cache = Query.run i c.heap fuel q cache) →
      (∀ r fuel x x' k k', readRaw i c.heap fuel r .empty = (.ok x, k) → readRaw i' c'.heap fuel r .empty = (.ok x', k') → uncommented x' = uncommented x) → SameAside i i' (.ok c) (.ok c')
  | errors {e e' : ErrObj} : gist e'.text = gist e.text → SameAside i i' (.error (.parseError e)) (.error (.parseError e'))
  | exceptions {x : PyExc} : SameAside i i' (.error (.py x)) (.error (.py x))

end Eno.Spec
