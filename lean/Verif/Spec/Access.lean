import Verif.Spec.History
import Verif.Spec.Answers

/-!
# Specification: what accessors find
-/

namespace Eno.El

/-- `xs` are the elements of the section of which an object is made, own and copied (C32 relates them to the written document). -/
def Elements (E : Env) (x : Obj) (xs : List Nat) : Prop := instElements E.ctx.heap E.depth x.ref.idx [] = .ok xs

/-- The elements with a key; no key and the empty key stand for all of them. -/
def withKey (h : Heap) (key : Option Str) (xs : List Nat) : List Nat :=
  match key with
  | none | some [] => xs
  | some k => xs.filter fun i => (h.at i).key = k

/-- What elements can be yielded as: what they are, and empty elements as anything but a section. -/
inductive Fits : Kind → Ty → Prop where
  | empty : Fits .empty .empty
  | field : Fits .field .field
  | multilineField : Fits .field .mlBegin
  | emptyField : Fits .field .empty
  | fieldset : Fits .fieldset .fieldset
  | emptyFieldset : Fits .fieldset .empty
  | list : Fits .list .list
  | emptyList : Fits .list .empty
  | section : Fits .section .section

/-- The messages about an element of another kind, with accessors for one element. -/
def expectedOf : Kind → MsgName
  | .empty => .expectedEmpty
  | .field => .expectedField
  | .fieldset => .expectedFieldset
  | .list => .expectedList
  | .section => .expectedSection

/-- The same with accessors for several elements. -/
def expectedAllOf : Kind → MsgName
  | .empty => .expectedEmpty
  | .field => .expectedFields
  | .fieldset => .expectedFieldsets
  | .list => .expectedLists
  | .section => .expectedSections

/-- The messages about a missing element. -/
def missingOf : Want → MsgName
  | .any => .missingElement
  | .kind .empty => .missingEmpty
  | .kind .field => .missingField
  | .kind .fieldset => .missingFieldset
  | .kind .list => .missingList
  | .kind .section => .missingSection

/-- The messages about several elements. -/
def singleOf : Want → MsgName
  | .any => .expectedSingleElement
  | .kind .empty => .expectedSingleEmpty
  | .kind .field => .expectedSingleField
  | .kind .fieldset => .expectedSingleFieldset
  | .kind .list => .expectedSingleList
  | .kind .section => .expectedSingleSection

/-- A validation error is raised, or what making it raises. -/
def raised {α} : Except PyExc ErrObj → Except Exc α
  | .ok e => .error (.validation e)
  | .error e => .error (.py e)

/-- `y` is the object of `o` for the element `i`. -/
structure ObjectFor (w : World) (o i y : Nat) : Prop where
  listed : ∃ ys, (w.at o).children = some ys ∧ y ∈ ys
  isA : IsA w y .sectionElement
  ref : (w.at y).ref = .elem i
  parent : (w.at y).parent = some o

/-- The element `i` of `o` was not yet yielded as anything but `k`. -/
def FreeFor (w : World) (o i : Nat) (k : Kind) : Prop := ∀ y k', ObjectFor w o i y → (w.at y).yielded = some k' → k' = k

/-- `rs` are the items of the list of which an object is made, own and copied (C28). -/
def Items (E : Env) (x : Obj) (rs : List Ref) : Prop := instItems E.ctx.heap E.depth x.ref.idx = .ok rs

/-- `rs` are the entries of the fieldset of which an object is made, own and copied (C29). -/
def Entries (E : Env) (x : Obj) (rs : List Ref) : Prop := ∃ made, instEntries E.ctx.heap E.depth x.ref.idx [] = .ok (made, rs)

/-- What a loader returns or raises, but with a validation error for a rejected text. -/
def handled {α} (err : Str → Except PyExc ErrObj) : Except Exc α × World → Except Exc α × World
  | (.error (.valueError m), w) => (raised (err m), w)
  | r => r

/-- The object was touched. -/
def markTouched (w : World) (o : Nat) : List Obj := w.objs.modify o fun x => { x with touched := true }

/-- The values of fields, items and entries. -/
def HasValue (c : Cls) : Prop := c = .of .field ∨ c = .entry ∨ c = .item

/-- The element of which an object is made, or the list of an item, or the entry, has this key. -/
def KeyIs (h : Heap) : Ref → Str → Prop
  | .elem i, k => 0 < i ∧ k = (h.at i).key
  | .item i _, k => k = (h.at i).key
  | .entry i j, k => ∃ x, h.sub? (.entry i j) = some x ∧ x.key = some k

/-! ## `assert_all_touched` -/

/-- The keys that `assert_all_touched` is about: those in `only`, if there are any, but not those in `skip`. -/
def Concerns (only skip : List Str) (k : Str) : Prop := k ∉ skip ∧ (only = [] ∨ k ∈ only)

/-- All elements of the section with the keys in question were used. -/
def AllUsed (E : Env) (w : World) (o : Nat) (only skip : List Str) (xs : List Nat) : Prop :=
  ∀ i ∈ xs, Concerns only skip (E.ctx.heap.at i).key → (∃ y, ObjectFor w o i y) ∧ ∀ y, ObjectFor w o i y → UsedElement E w y

/-- What is raised about an element `r` that was not touched: with the given text, or with what the function makes of a new object for it. -/
def complaint (E : Env) (o : Nat) (m : Option (MsgArg Nat)) (r : Ref) (w : World) : Except Exc Unit × World :=
  match m with
  | none => (raised (unexpectedElement E.o E.ctx none r), w)
  | some (.text s) => (raised (unexpectedElement E.o E.ctx (some s) r), w)
  | some (.fn f) =>
    match f w.objs.length { w with objs := w.objs ++ [{ cls := .element, ref := r, parent := some o }] } with
    | (.ok s, w2) => (raised (unexpectedElement E.o E.ctx (some s) r), w2)
    | (.error e, w2) => (.error e, w2)

/-! ## Missing objects -/

/-- The section that lacks the outermost missing element, with the key of that element and what it was wanted as. -/
def Missing.outermost : Missing → Nat × Option Want × Option Str
  | .under s want key => (s, want, key)
  | .inside p _ _ => p.outermost

/-- The message about an element that is missing as this. -/
def messageFor : Option Want → MsgName
  | some (.kind .field) => .missingField
  | some (.kind .fieldset) => .missingFieldset
  | some (.kind .list) => .missingList
  | some (.kind .section) => .missingSection
  | _ => .missingElement

/-- Reads of missing objects that need what is missing. -/
inductive NeedsIt : Option Want → Method → Prop where
  | comment {x f} : NeedsIt x (.comment true f)
  | key {x f} : NeedsIt x (.key f)
  | field {f} : NeedsIt (some (.kind .field)) (.value true f)
  | entryValue {f} : NeedsIt none (.value true f)
  | entry {k} : NeedsIt (some (.kind .fieldset)) (.entry k (some true))
  | one {want k} : NeedsIt (some (.kind .section)) (.one want k (some true))

/-- Reads of missing objects that do not, with what they return. -/
inductive WithoutIt : Option Want → Method → Val → Prop where
  | comment {x f} : WithoutIt x (.comment false f) .none
  | raw {x} : WithoutIt x .raw .none
  | field {f} : WithoutIt (some (.kind .field)) (.value false f) .none
  | entryValue {f} : WithoutIt none (.value false f) .none
  | items : WithoutIt (some (.kind .list)) .items (.list [])
  | values {f} : WithoutIt (some (.kind .list)) (.values false f) (.list [])
  | entries {k} : WithoutIt (some (.kind .fieldset)) (.entries k) (.list [])
  | entry {k} : WithoutIt (some (.kind .fieldset)) (.entry k (some false)) .none
  | one {want k} : WithoutIt (some (.kind .section)) (.one want k (some false)) .none
  | many {want k} : want ≠ .kind .empty → WithoutIt (some (.kind .section)) (.many want k) (.list [])
  /-- a missing element can be used as anything -/
  | yields {k} : WithoutIt (some .any) (.yields k) (.bool true)

/-! ## Values of lists -/

/-- What a required or optional read of a value returns or raises. -/
def outcome (E : Env) (required : Bool) (f : Str → Except Exc Val) (r : Ref) : Option Str → Except Exc Val
  | none => if required then raised (missingValue E.o E.ctx r) else .ok .none
  | some t => match f t with
    | .error (.valueError m) => raised (valueError E.o E.ctx m r)
    | x => x

/-- One after the other, until one raises. -/
def outcomes (E : Env) (required : Bool) (f : Str → Except Exc Val) : List (Ref × Option Str) → Except Exc (List Val)
  | [] => .ok []
  | p :: ps => match outcome E required f p.1 p.2 with
    | .error e => .error e
    | .ok a => match outcomes E required f ps with
      | .error e => .error e
      | .ok as => .ok (a :: as)

end Eno.El
