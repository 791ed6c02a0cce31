import Verif.Spec.Document
import Verif.Spec.Sayings

/-!
# Specification: what the lines of a document say, in order

Documents with copies, as trees, and the list of what their lines say (`Spec/Sayings.lean`): an element comes before what is in it, a section after the elements that
belong to the section around it, with one more hash sign. This is a grammar of the documents; nothing here refers to the analyzer.
-/

namespace Eno.Spec

/-- What can be written under a copy of an element: nothing, items or entries. -/
inductive Inner where
  | nothing
  | items (x : Item) (xs : List Item)
  | entries (x : Entry) (xs : List Entry)

/-- An element that is not a section: one that is written, or a copy. -/
inductive Thing where
  | plain (e : Element)
  | copy (remark : Remark) (key template : Str) (inner : Inner)

/-- A section, possibly a copy (`true`: a deep one), with its elements and its subsections. -/
inductive Part where
  | mk (remark : Remark) (key : Str) (copy : Option (Bool × Str)) (things : List Thing) (parts : List Part)

/-- A document. -/
structure Doc where
  things : List Thing
  parts : List Part

/-! ## What the lines say -/

/-- Comment lines. -/
def Remark.said (r : Remark) : List Said := r.map fun x => .comment (x.2.map fun t => (x.1, t))

/-- Continuations. -/
def saidMore (more : List (Bool × Option Str)) : List Said := more.map fun x => .line (.continuation x.1 x.2)

/-- An item. -/
def Item.said (x : Item) : List Said := Remark.said x.remark ++ .line (.listItem x.parts.first) :: saidMore x.parts.more

/-- An entry. -/
def Entry.said (x : Entry) : List Said := Remark.said x.remark ++ .line (.entry x.key x.parts.first) :: saidMore x.parts.more

/-- Items or entries. -/
def Inner.said : Inner → List Said
  | .nothing => []
  | .items x xs => (x :: xs).flatMap Item.said
  | .entries x xs => (x :: xs).flatMap Entry.said

/-- An element. -/
def Element.said (e : Element) : List Said :=
  Remark.said e.remark ++
    match e.content with
    | .parts p => .line (.element e.key p.first) :: saidMore p.more
    | .items x xs => .line (.element e.key none) :: (Inner.items x xs).said
    | .entries x xs => .line (.element e.key none) :: (Inner.entries x xs).said
    | .verbatim ls => [.multi e.key (if ls = [] then none else some (['\n'].intercalate ls))]

/-- An element or a copy. -/
def Thing.said : Thing → List Said
  | .plain e => e.said
  | .copy r k t inner => Remark.said r ++ .line (.copy k t) :: inner.said

mutual

/-- A section with `d` hash signs. -/
def Part.said (d : Nat) : Part → List Said
  | .mk r k c ts ps => Remark.said r ++ .line (.heading d k c) :: (ts.flatMap Thing.said ++ partsSaid (d + 1) ps)

/-- Sections with `d` hash signs. -/
def partsSaid (d : Nat) : List Part → List Said
  | [] => []
  | p :: ps => p.said d ++ partsSaid d ps

end

/-- A document. -/
def Doc.said (T : Doc) : List Said := T.things.flatMap Thing.said ++ partsSaid 1 T.parts

/-! ## Trimmed texts -/

/-- Keys, values, templates and comments on one line are trimmed; the text of a comment has a column, behind `>`; a heading has hash signs. -/
def Said.Trim : Said → Prop
  | .comment c => ∀ x, c = some x → 0 < x.1 ∧ Trimmed x.2
  | .multi k _ => Trimmed k
  | .line .empty => True
  | .line (.element k v) => Trimmed k ∧ ∀ x, v = some x → Trimmed x
  | .line (.listItem v) => ∀ x, v = some x → Trimmed x
  | .line (.entry k v) => Trimmed k ∧ ∀ x, v = some x → Trimmed x
  | .line (.continuation _ v) => ∀ x, v = some x → Trimmed x
  | .line (.heading d k c) => 0 < d ∧ Trimmed k ∧ ∀ x, c = some x → Trimmed x.2
  | .line (.copy k t) => Trimmed k ∧ Trimmed t
  | .line (.multiline ..) => False
  | .line (.comment _) => False

/-! ## Trees without redundancy -/

/-- A comment line without text has no column. -/
def Remark.Ok (r : Remark) : Prop := ∀ x ∈ r, x.2 = none → x.1 = 0

def Inner.Ok : Inner → Prop
  | .nothing => True
  | .items x xs => ∀ y ∈ x :: xs, Remark.Ok y.remark
  | .entries x xs => ∀ y ∈ x :: xs, Remark.Ok y.remark

/-- Verbatim lines are lines. -/
def Content.Ok : Content → Prop
  | .parts _ => True
  | .items x xs => (Inner.items x xs).Ok
  | .entries x xs => (Inner.entries x xs).Ok
  | .verbatim ls => ∀ l ∈ ls, '\n' ∉ l

def Thing.Ok : Thing → Prop
  | .plain e => Remark.Ok e.remark ∧ e.content.Ok
  | .copy r _ _ inner => Remark.Ok r ∧ inner.Ok

mutual

def Part.Ok : Part → Prop
  | .mk r _ _ ts ps => Remark.Ok r ∧ (∀ t ∈ ts, t.Ok) ∧ PartsOk ps

def PartsOk : List Part → Prop
  | [] => True
  | p :: ps => p.Ok ∧ PartsOk ps

end

/-- Comments without text have no columns and verbatim lines are lines. -/
def Doc.Ok (T : Doc) : Prop := (∀ t ∈ T.things, t.Ok) ∧ PartsOk T.parts

/-! ## Documents without copies -/

mutual

/-- A section without copies. -/
def Sec.part : Sec → Part
  | .mk r k es ss => .mk r k none (es.map .plain) (secParts ss)

/-- Sections without copies. -/
def secParts : List Sec → List Part
  | [] => []
  | s :: ss => s.part :: secParts ss

end

/-- A document without copies. -/
def Document.doc (D : Document) : Doc := ⟨D.elements.map .plain, secParts D.sections⟩

/-- A line that copies an element or a section. -/
def Said.copies : Said → Bool
  | .line (.copy ..) => true
  | .line (.heading _ _ (some _)) => true
  | _ => false

/-! ## Documents whose comments can be read -/

/-- Not a single empty line (see C22). -/
def Remark.Shown (r : Remark) : Prop := ∀ n, r ≠ [(n, none)]

def Content.Shown : Content → Prop
  | .items x xs => ∀ y ∈ x :: xs, Remark.Shown y.remark
  | .entries x xs => ∀ y ∈ x :: xs, Remark.Shown y.remark
  | _ => True

def Element.Shown (e : Element) : Prop := Remark.Shown e.remark ∧ e.content.Shown

mutual

def Sec.Shown : Sec → Prop
  | .mk r _ es ss => Remark.Shown r ∧ (∀ e ∈ es, e.Shown) ∧ SecsShown ss

def SecsShown : List Sec → Prop
  | [] => True
  | s :: ss => s.Shown ∧ SecsShown ss

end

/-- No comment is a single empty line. -/
def Document.Shown (D : Document) : Prop := (∀ e ∈ D.elements, e.Shown) ∧ SecsShown D.sections

end Eno.Spec
