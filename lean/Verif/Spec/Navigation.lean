import Verif.Spec.Document
import Verif.Spec.Access

/-!
# Specification: finding one's way through a document by keys
-/

namespace Eno.Spec

def Sec.remark : Sec → Remark | .mk r _ _ _ => r
def Sec.key : Sec → Str | .mk _ k _ _ => k
def Sec.elements : Sec → List Element | .mk _ _ es _ => es
def Sec.sections : Sec → List Sec | .mk _ _ _ ss => ss

/-- Among elements and sections, `e` is the only thing with its key. -/
def OnlyElement (es : List Element) (ss : List Sec) (e : Element) : Prop := e.key ≠ [] ∧ es.filter (fun x => x.key = e.key) = [e] ∧ ∀ s ∈ ss, s.key ≠ e.key

/-- Among elements and sections, `s` is the only thing with its key. -/
def OnlySection (es : List Element) (ss : List Sec) (s : Sec) : Prop := s.key ≠ [] ∧ (∀ e ∈ es, e.key ≠ s.key) ∧ ss.filter (fun x => x.key = s.key) = [s]

/-- Nothing has the key. -/
def NothingWith (es : List Element) (ss : List Sec) (k : Str) : Prop := k ≠ [] ∧ (∀ e ∈ es, e.key ≠ k) ∧ ∀ s ∈ ss, s.key ≠ k

/-- The text of a field, if it is one: not an empty element, a list or a fieldset. -/
def Content.text : Content → Option (Option Str)
  | .parts ⟨none, []⟩ => none
  | .parts p => some p.text
  | .verbatim ls => some (if ls = [] then none else some (['\n'].intercalate ls))
  | .items _ _ => none
  | .entries _ _ => none

/-- From elements and sections, the keys lead to these elements and sections, with a single thing to choose at each step. -/
inductive Descends : List Element → List Sec → List Str → List Element → List Sec → Prop where
  | here {es ss} : Descends es ss [] es ss
  | down {es ss s ks es' ss'} : OnlySection es ss s → Descends s.elements s.sections ks es' ss' → Descends es ss (s.key :: ks) es' ss'

end Eno.Spec

namespace Eno.El

open Spec

/-- `.required_section(k)` again and again leads from one object and world to others. -/
inductive Sections (E : Env) : Nat → World → List Str → Nat → World → Prop where
  | here {o w} : Sections E o w [] o w
  | down {o w k ks y w1 z w2} : run E o (.one (.kind .section) (some k) (some true)) w = (.ok (.obj y), w1) → Sections E y w1 ks z w2 → Sections E o w (k :: ks) z w2

/-- Reading the value of an object gives this text: without text, optional access gives nothing; a text is given to the loader, and its result is returned. -/
def Gives (E : Env) (w : World) (o : Nat) : Option Str → Prop
  | none => ∀ loader, (run E o (.value false loader) w).1 = .ok .none
  | some t => ∀ required loader v, (∀ w', (loader t w').1 = .ok v) → (run E o (.value required loader) w).1 = .ok v

/-- The same for the comment. -/
def Notes (E : Env) (w : World) (o : Nat) : Option Str → Prop
  | none | some [] => ∀ loader, (run E o (.comment false loader) w).1 = .ok .none
  | some t => ∀ required loader v, (∀ w', (loader t w').1 = .ok v) → (run E o (.comment required loader) w).1 = .ok v

end Eno.El
