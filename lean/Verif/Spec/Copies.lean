import Verif.Data

/-!
# Specification: what copies refer to

Read off an analysed document, before anything is resolved.
-/

namespace Eno.Spec

/-- Sections (`sec`) or other elements (not `sec`) that copy the name `k`, in document order. -/
def copiers (h : Heap) (sec : Bool) (k : Str) : List Nat :=
  (List.range h.length).filter fun i => decide ((h.at i).copy = some k) && (decide ((h.at i).type = .section) == sec)

/-- What may serve as template for the name `k`: elements of that sort with that key which are not copies of `k` themselves. The
document (position 0) has no key. -/
def candidates (h : Heap) (sec : Bool) (k : Str) : List Nat :=
  (List.range h.length).filter fun i => decide (0 < i) && decide ((h.at i).key = k) && decide ((h.at i).template ≠ some k) &&
    (decide ((h.at i).type = .section) == sec)

/-- `t` is the template that the copy `i` refers to: the only candidate for the name. -/
def TemplateIs (h : Heap) (i t : Nat) : Prop :=
  i < h.length ∧ ∃ k, (h.at i).copy = some k ∧ candidates h (decide ((h.at i).type = .section)) k = [t]

/-- Following templates from a non-section element ends at an element that is not a copy. -/
inductive Grounded (h : Heap) : Nat → Prop where
  | own {i} : (h.at i).copy = none → Grounded h i
  | copy {i t} : TemplateIs h i t → Grounded h t → Grounded h i

/-- Following templates, at least once, leads from one element to another. -/
inductive Leads (h : Heap) : Nat → Nat → Prop where
  | one {i t} : TemplateIs h i t → Leads h i t
  | step {i t j} : TemplateIs h i t → Leads h t j → Leads h i j

/-- What an empty copy becomes. -/
def copyKind : Ty → Ty
  | .mlBegin => .field
  | .field => .field
  | .fieldset => .fieldset
  | .list => .list
  | _ => .empty

/-- Own list items or fieldset entries do not go with the kind of the template. -/
def Clash (own template : Ty) : Prop :=
  (own = .list ∧ (template = .field ∨ template = .fieldset ∨ template = .mlBegin)) ∨
  (own = .fieldset ∧ (template = .field ∨ template = .list ∨ template = .mlBegin))

/-- The kind of a non-section element once copies are resolved. -/
inductive KindOf (h : Heap) : Nat → Ty → Prop where
  | own {i} : (h.at i).copy = none → KindOf h i (h.at i).type
  | empty {i t k} : TemplateIs h i t → KindOf h t k → (h.at i).type = .empty → KindOf h i (copyKind k)
  | extended {i t k} : TemplateIs h i t → KindOf h t k → (h.at i).type ≠ .empty → ¬ Clash (h.at i).type k → KindOf h i (h.at i).type

/-- A copy with own items or entries that do not go with its template. -/
def Incompatible (h : Heap) (i : Nat) : Prop := ∃ t k, TemplateIs h i t ∧ KindOf h t k ∧ Clash (h.at i).type k

/-- The template of a section `s`, and its subsections if some section in it awaits resolution, have to be resolved before `s`. -/
def Dep (h : Heap) (s c : Nat) : Prop :=
  (h.at c).type = .section ∧ ((h.at c).copy.isSome ∨ (h.at c).deepResolve = true) ∧
  (((h.at s).deepResolve = true ∧ c ∈ (h.at s).elements) ∨ TemplateIs h s c)

/-- Following dependencies, at least once, leads from one section to another. -/
inductive DepLeads (h : Heap) : Nat → Nat → Prop where
  | one {i t} : Dep h i t → DepLeads h i t
  | step {i t j} : Dep h i t → DepLeads h t j → DepLeads h i j

/-- A section can be resolved: what it depends on can be, and it has a template if it needs one. -/
inductive Resolvable (h : Heap) : Nat → Prop where
  | mk {s} : ((h.at s).copy.isSome → ∃ t, TemplateIs h s t) → (∀ c, Dep h s c → Resolvable h c) → Resolvable h s

/-- `a` is above `j`. -/
inductive Above (h : Heap) : Nat → Nat → Prop where
  | parent {j p} : (h.at j).parent = some p → Above h p j
  | step {j p a} : (h.at j).parent = some p → Above h a p → Above h a j

/-- No section around an element is a deep copy, so that no deep merge can touch it. -/
def Shielded (h : Heap) (j : Nat) : Prop := ∀ a, Above h a j → (h.at a).deepCopy = false

/-- No deep merge can touch a section or what it is copied from. -/
def Undisturbed (h : Heap) (s : Nat) : Prop := Shielded h s ∧ ∀ t, Leads h s t → Shielded h t

/-- Everything that is copied can be. -/
structure WellCopied (h : Heap) : Prop where
  /-- each copied name has exactly one candidate -/
  templates : ∀ i, i < h.length → (h.at i).copy.isSome → ∃ t, TemplateIs h i t
  /-- no element copies itself in the end -/
  elements : ∀ i, i < h.length → (h.at i).type ≠ .section → ¬ Leads h i i
  /-- own items and entries go with what is copied -/
  kinds : ∀ i, i < h.length → ¬ Incompatible h i
  /-- no section has to be resolved before itself -/
  sections : ∀ i, i < h.length → (h.at i).type = .section → ¬ DepLeads h i i

end Eno.Spec
