import Verif.Spec.Access
import Verif.Spec.Answers

/-!
# Specification: `repr` of elements
-/

namespace Eno.El

open Spec

/-- What is shown of a value: nothing for none, all of it if it is short, and otherwise its beginning. -/
def shortened : Option Str → Str
  | none => chars!"None"
  | some v => if v.length = 0 then chars!"None" else if v.length ≤ 14 then v else v.take 11 ++ chars!"..."

/-- A number in decimal notation. -/
def inDecimal (n : Nat) : Str := (Nat.repr n).toList

/-- What `repr` of an object should say: class, key, value or the number of items, entries or elements. `h0` is the written document. -/
inductive Described (E : Env) (input : Str) (h0 : Heap) (x : Obj) : Str → Prop where
  | empty {k} : x.cls = .of .empty → KeyIs E.ctx.heap x.ref k → Described E input h0 x (chars!"<class Empty key=" ++ k ++ chars!">")
  | field {k v} : x.cls = .of .field → KeyIs E.ctx.heap x.ref k → AnswerOf input h0 (.value x.ref) (.text v) →
      Described E input h0 x (chars!"<class Field key=" ++ k ++ chars!" value=" ++ shortened v ++ chars!">")
  | entry {k v} : x.cls = .entry → KeyIs E.ctx.heap x.ref k → AnswerOf input h0 (.value x.ref) (.text v) →
      Described E input h0 x (chars!"<class FieldsetEntry key=" ++ k ++ chars!" value=" ++ shortened v ++ chars!">")
  | item {v} : x.cls = .item → AnswerOf input h0 (.value x.ref) (.text v) → Described E input h0 x (chars!"<class ListItem value=" ++ shortened v ++ chars!">")
  | list {k rs} : x.cls = .of .list → KeyIs E.ctx.heap x.ref k → Items E x rs →
      Described E input h0 x (chars!"<class List key=" ++ k ++ chars!" items=" ++ inDecimal rs.length ++ chars!">")
  | fieldset {k rs} : x.cls = .of .fieldset → KeyIs E.ctx.heap x.ref k → Entries E x rs →
      Described E input h0 x (chars!"<class Fieldset key=" ++ k ++ chars!" entries=" ++ inDecimal rs.length ++ chars!">")
  | section {k xs} : x.cls = .of .section → KeyIs E.ctx.heap x.ref k → Elements E x xs →
      Described E input h0 x (chars!"<class Section key=\"" ++ k ++ chars!"\" elements=" ++ inDecimal xs.length ++ chars!">")
  | document {xs} : x.cls = .of .section → x.ref = .elem 0 → Elements E x xs →
      Described E input h0 x (chars!"<class Section document elements=" ++ inDecimal xs.length ++ chars!">")
  | sectionElement {k} : x.cls = .sectionElement → KeyIs E.ctx.heap x.ref k → Described E input h0 x (chars!"<class SectionElement key=" ++ k ++ chars!">")
  | element {k} : x.cls = .element → KeyIs E.ctx.heap x.ref k → Described E input h0 x (chars!"<class Element key=" ++ k ++ chars!">")

/-- Nothing about the objects changed that a program could tell apart: what was touched, what was made of it, whether missing elements are required. -/
def SameToPrograms (w w' : World) : Prop :=
  ∀ o, o < w.objs.length → (w'.at o).cls = (w.at o).cls ∧ (w'.at o).ref = (w.at o).ref ∧ (w'.at o).parent = (w.at o).parent ∧ (w'.at o).touched = (w.at o).touched ∧
    (w'.at o).made = (w.at o).made ∧ (w'.at o).yielded = (w.at o).yielded ∧ (w'.at o).required = (w.at o).required

end Eno.El
