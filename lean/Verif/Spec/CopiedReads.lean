import Verif.Spec.Copied
import Verif.Spec.Navigation

/-!
# Specification: finding one's way through what a document with copies means
-/

namespace Eno.Spec

/-- Among these, `x` is the only one with the key. -/
def Once (xs : List Raw) (k : Str) (x : Raw) : Prop := k ≠ [] ∧ xs.filter (fun y => decide (rawKey y = some k)) = [x]

/-- From these, the keys lead to those, with a single thing to choose at each step: a section. -/
inductive Goes : List Raw → List Str → List Raw → Prop where
  | here {xs} : Goes xs [] xs
  | down {xs k c ys ks zs} : Once xs k (.node .section c (some k) ys) → Goes ys ks zs → Goes xs (k :: ks) zs

/-- The text that is shown. -/
def rawText : Raw → Option Str
  | .leaf _ _ _ v => v.join
  | .node _ _ _ _ => none

/-- The comment that is shown. -/
def rawNote : Raw → Option Str
  | .leaf _ c _ _ => c.join
  | .node _ c _ _ => c.join

/-- Not a deep copy. -/
def Node.NoDeep : Node → Prop
  | .thing _ => True
  | .part (.mk _ _ none _ _) => True
  | .part (.mk _ _ (some (deep, _)) _ _) => deep = false

/-- The text says a document without deep copies (see C32) and without single empty comment lines (see C22) which means this. -/
structure Conveys (input : Str) (T : Doc) (xs : List Raw) : Prop where
  says : ∃ es, Says input es .finished ∧ told es = T.said
  ok : T.Ok
  shown : T.Shown
  noDeep : ∀ x ∈ T.nodes, x.NoDeep
  means : T.Means (.node .document none none xs)

/-- Those with a key. -/
def keyedRaws (xs : List Raw) (k : Str) : List Raw := xs.filter fun y => decide (rawKey y = some k)

/-- What it can be accessed as, if there is only one possibility (empty elements can be accessed as several kinds). -/
def rawKind : Raw → Option El.Kind
  | .leaf .field _ _ (some _) => some .field
  | .leaf .mlBegin _ _ (some _) => some .field
  | .node .list _ _ _ => some .list
  | .node .fieldset _ _ _ => some .fieldset
  | .node .section _ _ _ => some .section
  | _ => none

/-- From these, keys and numbers lead to those: at each step everything with the key is a section, and the number says which of them, counted from zero. -/
inductive Chooses : List Raw → List (Str × Nat) → List Raw → Prop where
  | here {xs} : Chooses xs [] xs
  | down {xs k n c k' ys ks zs} : k ≠ [] → (∀ y ∈ keyedRaws xs k, rawKind y = some .section) → (keyedRaws xs k)[n]? = some (.node .section c k' ys) → Chooses ys ks zs →
      Chooses xs ((k, n) :: ks) zs

end Eno.Spec

namespace Eno.El

open Spec

/-- `.sections(k)[n]` again and again leads from one object and world to others. -/
inductive Choosing (E : Env) : Nat → World → List (Str × Nat) → Nat → World → Prop where
  | here {o w} : Choosing E o w [] o w
  | down {o w k n ks os y w1 z w2} : run E o (.many (.kind .section) (some k)) w = (.ok (.objs os), w1) → os[n]? = some y → Choosing E y w1 ks z w2 →
      Choosing E o w ((k, n) :: ks) z w2

/-- Reading the object gives what is shown: the comment, and the text, the texts of all items, or the texts of the entries whose key occurs once. -/
def ReadsAs (E : Env) (w : World) (y : Nat) : Raw → Prop
  | .leaf _ c _ v => Gives E w y v.join ∧ Notes E w y c.join
  | .node .list c _ zs =>
    Notes E w y c.join ∧ (run E y .length w).1 = .ok (.nat zs.length) ∧
      (∀ f : Str → Val, (run E y (.values false fun t w => (.ok (f t), w)) w).1 = .ok (.list (zs.map fun z => Val.opt ((rawText z).map f)))) ∧
      ∃ os, (run E y .items w).1 = .ok (.objs os) ∧ os.length = zs.length ∧
        ∀ p ∈ os.zip zs, ∀ w4, Leads E (run E y .items w).2 w4 → Gives E w4 p.1 (rawText p.2) ∧ Notes E w4 p.1 (rawNote p.2)
  | .node .fieldset c _ zs =>
    Notes E w y c.join ∧ ∀ k z, Once zs k z → ∃ e w4, run E y (.entry (some k) (some true)) w = (.ok (.obj e), w4) ∧
      ∀ w5, Leads E w4 w5 → Gives E w5 e (rawText z) ∧ Notes E w5 e (rawNote z)
  | .node _ c _ _ => Notes E w y c.join

end Eno.El
