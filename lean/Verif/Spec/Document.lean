import Verif.Spec.Forms
import Verif.Spec.Line
import Verif.Spec.Reading

/-!
# Specification: documents and how they can be written

What a document without copies says, as a tree, and all the ways of writing it down: a relation between trees and lists of lines. Nothing here
refers to the analyzer.
-/

namespace Eno.Spec

/-! ## Lines -/

/-- A key as it can be written in front of `:`, `=` and `<`. -/
inductive KeyForm : Str → Str → Prop where
  | plain {k} : PlainKey k → KeyForm k k
  | escaped {k n p1 p2} : Trimmed k → 0 < n → ¬ rep n '`' <:+: k → Blank p1 → Blank p2 → (p1 ≠ [] ∨ ∀ u, k ≠ '`' :: u) →
      (p2 ≠ [] ∨ ∀ u, k ≠ u ++ ['`']) → KeyForm k (rep n '`' ++ (p1 ++ (k ++ (p2 ++ rep n '`'))))

/-- What may follow the hash signs of a heading: white space and a key. -/
inductive HeadingKeyForm : Str → Str → Prop where
  | plain {k p} : Blank p → PlainHeadingKey k → (p ≠ [] ∨ ∀ u, k ≠ '#' :: u) → HeadingKeyForm k (p ++ k)
  | escaped {k n p p1 p2} : Blank p → Trimmed k → 0 < n → ¬ rep n '`' <:+: k → Blank p1 → Blank p2 → (p1 ≠ [] ∨ ∀ u, k ≠ '`' :: u) →
      (p2 ≠ [] ∨ ∀ u, k ≠ u ++ ['`']) → HeadingKeyForm k (p ++ (rep n '`' ++ (p1 ++ (k ++ (p2 ++ rep n '`')))))

/-- What may follow an operator: white space, or a text with white space around it. -/
inductive ValueForm : Option Str → Str → Prop where
  | none {p} : Blank p → ValueForm none p
  | some {v p1 p2} : Blank p1 → Trimmed v → Blank p2 → ValueForm (some v) (p1 ++ (v ++ p2))

/-- The ways of writing a line that is no comment. -/
inductive Writes : Line → Str → Prop where
  | blank {p} : Blank p → Writes .empty p
  | element {p0 k w p1 v x} : Blank p0 → KeyForm k w → Blank p1 → ValueForm v x → Writes (.element k v) (p0 ++ (w ++ (p1 ++ ':' :: x)))
  | entry {p0 k w p1 v x} : Blank p0 → KeyForm k w → Blank p1 → ValueForm v x → Writes (.entry k v) (p0 ++ (w ++ (p1 ++ '=' :: x)))
  | item {p0 v x} : Blank p0 → ValueForm v x → (∀ u, x ≠ '-' :: u) → Writes (.listItem v) (p0 ++ '-' :: x)
  | direct {p0 v x} : Blank p0 → ValueForm v x → Writes (.continuation false v) (p0 ++ '|' :: x)
  | spaced {p0 v x} : Blank p0 → ValueForm v x → Writes (.continuation true v) (p0 ++ '\\' :: x)
  | heading {p0 n k w p1} : Blank p0 → 0 < n → HeadingKeyForm k w → Blank p1 → Writes (.heading n k none) (p0 ++ (rep n '#' ++ (w ++ p1)))
  | multiline {p0 n k x} : Blank p0 → 2 ≤ n → ValueForm (some k) x → (∀ u, x ≠ '-' :: u) → Writes (.multiline n k) (p0 ++ (rep n '-' ++ x))
  | copy {p0 k w p1 q1 t q2} : Blank p0 → KeyForm k w → Blank p1 → Blank q1 → Trimmed t → Blank q2 → Writes (.copy k t) (p0 ++ (w ++ (p1 ++ '<' :: (q1 ++ (t ++ q2)))))
  | headingCopy {p0 n k w p1 deep q1 t q2} : Blank p0 → 0 < n → HeadingKeyForm k w → Blank p1 → Blank q1 → Trimmed t → Blank q2 → (q1 ≠ [] ∨ ∀ u, t ≠ '<' :: u) →
      Writes (.heading n k (some (deep, t))) (p0 ++ (rep n '#' ++ (w ++ (p1 ++ (rep (if deep then 2 else 1) '<' ++ (q1 ++ (t ++ q2)))))))

/-- The ways of writing a comment line: the column of its text (0 for an empty one) and the text. -/
inductive Remarks : Nat × Option Str → Str → Prop where
  | none {p0 p} : Blank p0 → Blank p → Remarks (0, none) (p0 ++ '>' :: p)
  | some {p0 v p1 p2} : Blank p0 → Blank p1 → Trimmed v → Blank p2 →
      Remarks (p0.length + 1 + p1.length, some v) (p0 ++ '>' :: (p1 ++ (v ++ p2)))

/-- Blank lines and comments. -/
def Filler (ls : List Str) : Prop := ∀ l ∈ ls, Blank l ∨ ∃ r, Remarks r l

/-- Blank lines and comments, the last line blank. -/
def Gap (ls : List Str) : Prop := Filler ls ∧ ∀ l, ls.getLast? = some l → Blank l

/-! ## What a document says -/

/-- Comment lines with their columns. -/
abbrev Remark := List (Nat × Option Str)

/-- A text in parts: the first one, and the continuations with whether there is a blank before them. -/
structure Parts where
  first : Option Str
  more : List (Bool × Option Str) := []

/-- A list item. -/
structure Item where
  remark : Remark
  parts : Parts

/-- A fieldset entry. -/
structure Entry where
  remark : Remark
  key : Str
  parts : Parts

/-- What an element that is not a section contains: a text (or nothing), items, entries or verbatim lines. -/
inductive Content where
  | parts (p : Parts)
  | items (x : Item) (xs : List Item)
  | entries (x : Entry) (xs : List Entry)
  | verbatim (lines : List Str)

/-- An element that is not a section. -/
structure Element where
  remark : Remark
  key : Str
  content : Content

/-- A section: its elements, then its subsections. -/
inductive Sec where
  | mk (remark : Remark) (key : Str) (elements : List Element) (sections : List Sec)

/-- A document without copies. -/
structure Document where
  elements : List Element
  sections : List Sec

/-! ## How a document is written -/

/-- One thing after the other. -/
inductive Each {α} (R : α → List Str → Prop) : List α → List Str → Prop where
  | nil : Each R [] []
  | cons {a as ls ls'} : R a ls → Each R as ls' → Each R (a :: as) (ls ++ ls')

/-- A line with its comment, possibly after blank lines and other comments. (A comment that consists of one empty line cannot be read, see C22.) -/
inductive Opening (r : Remark) (l : Line) : List Str → Prop where
  | mk {g cs t} : Gap g → Each (fun a ls => ∃ c, Remarks a c ∧ ls = [c]) r cs → (∀ n, r ≠ [(n, none)]) → Writes l t → Opening r l (g ++ (cs ++ [t]))

/-- A continuation, possibly after blank lines and comments. -/
inductive Continues (c : Bool × Option Str) : List Str → Prop where
  | mk {f t} : Filler f → Writes (.continuation c.1 c.2) t → Continues c (f ++ [t])

/-- A list item with its continuations. -/
inductive Item.Written (x : Item) : List Str → Prop where
  | mk {o c} : Opening x.remark (.listItem x.parts.first) o → Each Continues x.parts.more c → Item.Written x (o ++ c)

/-- A fieldset entry with its continuations. -/
inductive Entry.Written (x : Entry) : List Str → Prop where
  | mk {o c} : Opening x.remark (.entry x.key x.parts.first) o → Each Continues x.parts.more c → Entry.Written x (o ++ c)

/-- An element that is not a section. -/
inductive Element.Written : Element → List Str → Prop where
  | parts {r k p o c} : Opening r (.element k p.first) o → Each Continues p.more c → Element.Written ⟨r, k, .parts p⟩ (o ++ c)
  | items {r k x xs o ls} : Opening r (.element k none) o → Each Item.Written (x :: xs) ls → Element.Written ⟨r, k, .items x xs⟩ (o ++ ls)
  | entries {r k x xs o ls} : Opening r (.element k none) o → Each Entry.Written (x :: xs) ls → Element.Written ⟨r, k, .entries x xs⟩ (o ++ ls)
  | verbatim {r k n body o t} : Opening r (.multiline n k) o → (∀ l ∈ body, '\n' ∉ l ∧ ¬ IsTerminator (rep n '-') k l) →
      '\n' ∉ t → IsTerminator (rep n '-') k t → Element.Written ⟨r, k, .verbatim body⟩ (o ++ (body ++ [t]))

mutual

/-- A section whose heading has `d` hash signs. -/
inductive Sec.Written : Nat → Sec → List Str → Prop where
  | mk {d r k es ss o a b} : Opening r (.heading d k none) o → Each Element.Written es a → SecsWritten (d + 1) ss b →
      Sec.Written d (.mk r k es ss) (o ++ (a ++ b))

/-- Sections of the same depth. -/
inductive SecsWritten : Nat → List Sec → List Str → Prop where
  | nil {d} : SecsWritten d [] []
  | cons {d s ss a b} : Sec.Written d s a → SecsWritten d ss b → SecsWritten d (s :: ss) (a ++ b)

end

/-- The lines of a document. -/
inductive Document.Lines (D : Document) : List Str → Prop where
  | mk {a b f} : Each Element.Written D.elements a → SecsWritten 1 D.sections b → Filler f → Document.Lines D (a ++ (b ++ f))

/-- A way of writing a document. -/
def Document.Text (D : Document) (input : Str) : Prop := ∃ ls, D.Lines ls ∧ input = ['\n'].intercalate ls

/-! ## Documents that can be written -/

/-- Comment lines: an empty one has column 0, there is no single empty one. -/
def Remark.Valid (r : Remark) : Prop := (∀ x ∈ r, match x.2 with | none => x.1 = 0 | some v => 0 < x.1 ∧ Trimmed v) ∧ ∀ n, r ≠ [(n, none)]

/-- Texts are trimmed. -/
def Parts.Valid (p : Parts) : Prop := (∀ v, p.first = some v → Trimmed v) ∧ ∀ c ∈ p.more, ∀ v, c.2 = some v → Trimmed v

def Item.Valid (x : Item) : Prop := Remark.Valid x.remark ∧ x.parts.Valid

def Entry.Valid (x : Entry) : Prop := Remark.Valid x.remark ∧ Trimmed x.key ∧ x.parts.Valid

/-- Anything goes in verbatim lines. -/
def Content.Valid : Content → Prop
  | .parts p => p.Valid
  | .items x xs => ∀ y ∈ x :: xs, y.Valid
  | .entries x xs => ∀ y ∈ x :: xs, y.Valid
  | .verbatim ls => ∀ l ∈ ls, '\n' ∉ l

def Element.Valid (e : Element) : Prop := Remark.Valid e.remark ∧ Trimmed e.key ∧ e.content.Valid

mutual

def Sec.Valid : Sec → Prop
  | .mk r k es ss => Remark.Valid r ∧ Trimmed k ∧ (∀ e ∈ es, e.Valid) ∧ SecsValid ss

def SecsValid : List Sec → Prop
  | [] => True
  | s :: ss => s.Valid ∧ SecsValid ss

end

/-- Keys and texts are trimmed, comments have columns. -/
def Document.Valid (D : Document) : Prop := (∀ e ∈ D.elements, e.Valid) ∧ SecsValid D.sections

/-! ## What is shown of it -/

/-- The text of the parts: see `joined`. -/
def Parts.text (p : Parts) : Option Str := joined ((false, p.first) :: p.more)

/-- The comment, if there is one. -/
def Remark.raw (r : Remark) : Option (Option Str) := if r = [] then none else some (commentText r)

/-- A list item. -/
def Item.raw (x : Item) : Raw := .leaf .listItem (Remark.raw x.remark) none (some x.parts.text)

/-- A fieldset entry. -/
def Entry.raw (x : Entry) : Raw := .leaf .fieldsetEntry (Remark.raw x.remark) (some x.key) (some x.parts.text)

/-- An element that is not a section. -/
def Element.raw (e : Element) : Raw :=
  match e.content with
  | .parts ⟨none, []⟩ => .leaf .empty (Remark.raw e.remark) (some e.key) none
  | .parts p => .leaf .field (Remark.raw e.remark) (some e.key) (some p.text)
  | .items x xs => .node .list (Remark.raw e.remark) (some e.key) ((x :: xs).map Item.raw)
  | .entries x xs => .node .fieldset (Remark.raw e.remark) (some e.key) ((x :: xs).map Entry.raw)
  | .verbatim ls => .leaf .mlBegin (Remark.raw e.remark) (some e.key) (some (if ls = [] then none else some (['\n'].intercalate ls)))

mutual

/-- A section. -/
def Sec.raw : Sec → Raw
  | .mk r k es ss => .node .section (Remark.raw r) (some k) (es.map Element.raw ++ secsRaw ss)

/-- Sections. -/
def secsRaw : List Sec → List Raw
  | [] => []
  | s :: ss => s.raw :: secsRaw ss

end

/-- The document. -/
def Document.raw (D : Document) : Raw := .node .document none none (D.elements.map Element.raw ++ secsRaw D.sections)

end Eno.Spec
