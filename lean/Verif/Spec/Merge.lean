import Verif.Spec.Reading

/-!
# Specification: deep copies

A deep copy `# s << t` also merges the sections inside: a section in `s` is merged with the section of `t` that has the same key, if neither key occurs twice, and so on
inside these. Read off an analysed document, before anything is resolved.
-/

namespace Eno.Spec

/-- `x` is a section and the only element of `p` with its key. -/
def LoneSection (h : Heap) (p x : Nat) : Prop := (h.at x).type = .section ∧ (h.at p).elements.filter (fun i => (h.at i).key = (h.at x).key) = [x]

/-- Merging `s` with `t` merges `x` with `y`. -/
inductive Pairs (h : Heap) (deep : Bool) (s t : Nat) : Nat → Nat → Prop where
  | top : Pairs h deep s t s t
  | sub {p q x y : Nat} : deep = true → Pairs h deep s t p q → LoneSection h p x → LoneSection h q y → (h.at x).key = (h.at y).key → Pairs h deep s t x y

/-- The copied section `a` is resolved by merging it with its template, which merges `x` with `y`. -/
def Merges (h : Heap) (a x y : Nat) : Prop := (h.at a).type = .section ∧ ∃ t, TemplateIs h a t ∧ Pairs h (h.at a).deepCopy a t x y

/-- Following merges, whichever section they are due to, leads from one section to another. -/
inductive MergePath (h : Heap) : Nat → Nat → Prop where
  | one {a x y} : Merges h a x y → MergePath h x y
  | step {a x y z} : Merges h a x y → MergePath h y z → MergePath h x z

/-- No section is, in the end, merged with itself. -/
def NoCircles (h : Heap) : Prop := ∀ x, ¬ MergePath h x x

/-- `x` is merged with `y` because of `a`, and not with anything else because of a section around `a`. -/
def MergedBy (h : Heap) (a x y : Nat) : Prop := Merges h a x y ∧ ∀ b z, Merges h b x z → ¬ Above h b a

/-- What a section takes over elements from: what it is merged with because of the outermost section. -/
def Source (h : Heap) (x y : Nat) : Prop := ∃ a, MergedBy h a x y

/-- Following sources, at least once, leads from one section to another. -/
inductive Follows (h : Heap) : Nat → Nat → Prop where
  | one {s t} : Source h s t → Follows h s t
  | step {s t u} : Source h s t → Follows h t u → Follows h s u

/-- An empty section is merged at most once. -/
def MergedOnce (h : Heap) (x : Nat) : Prop := (h.at x).elements = [] → ∀ a b y z, Merges h a x y → Merges h b x z → a = b

/-- Empty sections that elements are taken over from are merged at most once. -/
def Steady (h : Heap) (s : Nat) : Prop := ∀ t, Follows h s t → MergedOnce h t

/-- The elements of a section: its own, and those of its source whose keys it does not define. -/
inductive Gathers (h : Heap) : Nat → List Nat → Prop where
  | own {s} : (∀ t, ¬ Source h s t) → Gathers h s (h.at s).elements
  | merged {s t xs} : Source h s t → Gathers h t xs →
      Gathers h s ((h.at s).elements ++ notOverridden h s xs)

end Eno.Spec
