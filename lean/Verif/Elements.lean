import Verif.Errors
import Verif.Instantiate

/-!
# `/repo/python/enolib/elements/`

The objects through which a program reads a document. They are mutable and refer to each other, so they live in a list and are referred to by position, in the order in
which they were created; position 0 is what `parse` returns. Attributes that may be missing (`hasattr`) are options or, for `_touched`, a truth value.

A method takes the world (the objects and what the context has computed) and returns its result, or the exception, with the world afterwards.
-/

namespace Eno.El

/-! ## Objects -/

/-- What `SectionElement.to_…` can make of an element. -/
inductive Kind where
  | empty | field | fieldset | list | «section»
deriving DecidableEq, Repr, Inhabited

/-- The classes. -/
inductive Cls where
  | of (k : Kind) | sectionElement | element | entry | item
deriving DecidableEq, Repr, Inhabited

/-- The attributes of all classes.
* `ref` is `_instruction`, `parent` is `_parent`, `touched` says whether there is `_touched`
* `required` is `_all_elements_required` of sections and `_all_entries_required` of fieldsets
* `children` is `_instantiated_elements`, `_instantiated_entries` or `_instantiated_items`, `index` is the dictionary `_instantiated_elements_map` or
  `_instantiated_entries_map` in its order
* `yielded` is `_yielded`, `made` are `_empty`, `_field`, `_fieldset`, `_list`, `_section` -/
structure Obj where
  cls : Cls
  ref : Ref
  parent : Option Nat := none
  touched : Bool := false
  required : Bool := false
  children : Option (List Nat) := none
  index : List (Str × List Nat) := []
  yielded : Option Kind := none
  made : Kind → Option Nat := fun _ => none
deriving Inhabited

/-- Everything that changes. -/
structure World where
  objs : List Obj
  cache : Cache

/-- Everything that does not: the options and the loaded document of the context, and the recursion depth that Python allows. -/
structure Env where
  o : Options := {}
  ctx : Ctx
  depth : Nat

/-- What a method can raise; `valueError` is what a loader raises to reject a text. -/
inductive Exc where
  | validation (e : ErrObj)
  | py (e : PyExc)
  | valueError (message : Str)
deriving DecidableEq, Repr

/-- A method call. -/
def Api (α : Type) := World → Except Exc α × World

instance : Monad Api where
  pure a := fun w => (.ok a, w)
  bind m f := fun w =>
    match m w with
    | (.ok a, w) => f a w
    | (.error e, w) => (.error e, w)

/-- `raise` -/
def raise {α} (e : Exc) : Api α := fun w => (.error e, w)

/-- `raise Validation.…`; making the error may itself raise. -/
def raiseValidation {α} : Except PyExc ErrObj → Api α
  | .ok e => raise (.validation e)
  | .error e => raise (.py e)

/-- `return Validation.…` -/
def makeError : Except PyExc ErrObj → Api ErrObj
  | .ok e => pure e
  | .error e => raise (.py e)

/-- A call of a method of the context. -/
def reading {α} (m : Read α) : Api α := fun w =>
  match m w.cache with
  | (.ok a, c) => (.ok a, { w with cache := c })
  | (.error e, c) => (.error (.py e), { w with cache := c })

/-- `try: … except ValueError as message: …` -/
def exceptValueError {α} (m : Api α) (f : Str → Api α) : Api α := fun w =>
  match m w with
  | (.error (.valueError message), w) => f message w
  | r => r

/-- The attributes of an object. -/
def World.at (w : World) (o : Nat) : Obj := w.objs.getD o default

/-- The attributes of an object. -/
def obj (o : Nat) : Api Obj := fun w => (.ok (w.at o), w)

/-- Assign to attributes of an object. -/
def assign (o : Nat) (f : Obj → Obj) : Api Unit := fun w => (.ok (), { w with objs := w.objs.modify o f })

/-- Create objects. -/
def create (xs : List Obj) : Api (List Nat) := fun w => (.ok (List.range' w.objs.length xs.length), { w with objs := w.objs ++ xs })

/-- `self._touched = True` -/
def setTouched (o : Nat) : Api Unit := assign o fun x => { x with touched := true }

/-- Call for one after the other. -/
def each {α β} (f : α → Api β) : List α → Api (List β)
  | [] => pure []
  | a :: as => do
    let b ← f a
    let bs ← each f as
    pure (b :: bs)

/-- Call for one after the other until there is a result. -/
def firstSome {α β} (f : α → Api (Option β)) : List α → Api (Option β)
  | [] => pure none
  | a :: as => do
    match ← f a with
    | some b => pure (some b)
    | none => firstSome f as

/-- The position of an element. -/
def _root_.Eno.Ref.idx : Ref → Nat
  | .elem i => i
  | .item i _ => i
  | .entry i _ => i

/-- A message, or a function that makes one. -/
inductive MsgArg (α : Type) where
  | text (s : Str)
  | fn (f : α → Api Str)

/-- `if callable(message): message = message(…)` -/
def MsgArg.get {α} (a : Api α) : MsgArg α → Api Str
  | .text s => pure s
  | .fn f => do f (← a)

/-! ## `element_base.py` -/

/-- `_key` — element_base.py:29-33. The `parent` of an item is its list. The document has no key. -/
def keyOf (E : Env) (o : Nat) : Api Str := do
  let x ← obj o
  match x.ref with
  | .item i _ => pure (E.ctx.heap.at i).key
  | r =>
    match E.ctx.heap.key? r with
    | some k => pure k
    | none => raise (.py .keyError)

/-- `self._context.comment(self._instruction)` -/
def commentOf (E : Env) (o : Nat) : Api (Option Str) := do
  let x ← obj o
  reading (readComment E.ctx.heap x.ref)

/-- `self._context.value(self._instruction)` -/
def valueOf (E : Env) (o : Nat) : Api (Option Str) := do
  let x ← obj o
  reading (readValue E.ctx.input E.ctx.heap E.depth x.ref)

/-- `_comment` — element_base.py:10-27; without a loader the comment is returned as it is. -/
def comment {α} (E : Env) (o : Nat) (required : Bool) (loader : Str → Api α) : Api (Option α) := do
  setTouched o
  let comment ← commentOf E o
  let x ← obj o
  match comment with
  | none | some [] => if required then raiseValidation (missingComment E.o E.ctx x.ref) else pure none
  | some text => some <$> exceptValueError (loader text) fun message => raiseValidation (commentError E.o E.ctx message x.ref)

/-- `comment_error` — element_base.py:35-39 -/
def commentErrorOf (E : Env) (o : Nat) (message : MsgArg (Option Str)) : Api ErrObj := do
  let message ← message.get (commentOf E o)
  let x ← obj o
  makeError (commentError E.o E.ctx message x.ref)

/-- `error` — element_base.py:41-45 -/
def errorOf (E : Env) (o : Nat) (message : MsgArg Nat) : Api ErrObj := do
  let message ← message.get (pure o)
  let x ← obj o
  makeError (elementError E.o E.ctx message x.ref)

/-- `key` — element_base.py:47-53, and `string_key` — element_base.py:76-79, which returns the key as it is. -/
def key {α} (E : Env) (o : Nat) (loader : Str → Api α) : Api α := do
  setTouched o
  let x ← obj o
  exceptValueError (do loader (← keyOf E o)) fun message => raiseValidation (keyError E.o E.ctx message x.ref)

/-- `key_error` — element_base.py:55-59 -/
def keyErrorOf (E : Env) (o : Nat) (message : MsgArg Str) : Api ErrObj := do
  let message ← message.get (keyOf E o)
  let x ← obj o
  makeError (keyError E.o E.ctx message x.ref)

/-- `raw` — element_base.py:67-68 -/
def rawOf (E : Env) (o : Nat) : Api Raw := do
  let x ← obj o
  reading (readRaw E.ctx.input E.ctx.heap E.depth x.ref)

/-! ## `value_element_base.py`, `field.py` -/

/-- `_value` — value_element_base.py:17-36, field.py:10-29; without a loader the value is returned as it is. -/
def value {α} (E : Env) (o : Nat) (required : Bool) (loader : Str → Api α) : Api (Option α) := do
  setTouched o
  let value ← valueOf E o
  let x ← obj o
  match value with
  | none => if required then raiseValidation (missingValue E.o E.ctx x.ref) else pure none
  | some text => some <$> exceptValueError (loader text) fun message => raiseValidation (valueError E.o E.ctx message x.ref)

/-- `value_error` — value_element_base.py:50-54 -/
def valueErrorOf (E : Env) (o : Nat) (message : MsgArg (Option Str)) : Api ErrObj := do
  let message ← message.get (valueOf E o)
  let x ← obj o
  makeError (valueError E.o E.ctx message x.ref)

/-! ## `section_element.py` -/

/-- `yields_…` and the conditions in `to_…` — section_element.py:39, 52-54, 67, 80, 90, 118-135; section.py -/
def Kind.fits : Kind → Ty → Bool
  | .empty, .empty => true
  | .field, .field => true
  | .field, .mlBegin => true
  | .field, .empty => true
  | .fieldset, .fieldset => true
  | .fieldset, .empty => true
  | .list, .list => true
  | .list, .empty => true
  | .section, .section => true
  | _, _ => false

/-- The messages of `to_…`. -/
def Kind.expected : Kind → MsgName
  | .empty => .expectedEmpty
  | .field => .expectedField
  | .fieldset => .expectedFieldset
  | .list => .expectedList
  | .section => .expectedSection

/-- The initial attributes of what is made. Sections and fieldsets take over what their parent requires (section.py:13-16, fieldset.py:9-12). -/
def Kind.new (k : Kind) (ref : Ref) (parent : Option Nat) (parentRequired : Bool) : Obj where
  cls := .of k
  ref := ref
  parent := parent
  required := (k = .section || k = .fieldset) && parentRequired

/-- `to_empty`, `to_field`, `to_fieldset`, `to_list`, `to_section` — section_element.py:34-96. The last one does not look at `_yielded`. -/
def to (E : Env) (k : Kind) (o : Nat) : Api Nat := do
  let x ← obj o
  match x.made k with
  | some y => pure y
  | none =>
    if k ≠ .section ∧ x.yielded.isSome then raise (.py .typeError)
    else if k.fits (E.ctx.heap.type x.ref) then do
      let p ← obj (x.parent.getD 0)
      let y ← create [k.new x.ref x.parent (x.parent.isSome && p.required)]
      assign o fun x => { x with made := upd x.made k (y.headD 0), yielded := some k }
      pure (y.headD 0)
    else raiseValidation (unexpectedElementType E.o E.ctx none x.ref k.expected)

/-- `yields_…` — section_element.py:118-135 -/
def yields (E : Env) (k : Kind) (o : Nat) : Api Bool := do
  let x ← obj o
  pure (k.fits (E.ctx.heap.type x.ref))

/-! ## `list.py` -/

/-- `_items` — list.py:20-24 -/
def listItems (E : Env) (o : Nat) : Api (List Nat) := do
  let x ← obj o
  match x.children with
  | some ys => pure ys
  | none =>
    match instItems E.ctx.heap E.depth x.ref.idx with
    | .error e => raise (.py e)
    | .ok rs => do
      let ys ← create (rs.map fun r => { cls := .item, ref := r, parent := some o })
      assign o fun x => { x with children := some ys }
      pure ys

/-- `next((child._instruction for child in children if not hasattr(child, '_touched')), …)` -/
def untouchedIn (ys : List Nat) : Api (Option Ref) :=
  firstSome (fun y => do
    let c ← obj y
    pure (if c.touched then none else some c.ref)) ys

/-- `_untouched` — list.py:26-32 -/
def untouchedList (E : Env) (o : Nat) : Api (Option Ref) := do
  let x ← obj o
  if x.touched then do untouchedIn (← listItems E o) else pure (some x.ref)

/-- `items` — list.py:34-37 -/
def items (E : Env) (o : Nat) : Api (List Nat) := do
  setTouched o
  listItems E o

/-- `length` — list.py:39-42 -/
def itemCount (E : Env) (o : Nat) : Api Nat := do
  setTouched o
  let ys ← listItems E o
  pure ys.length

/-- `optional_values`, `required_values`, … — list.py:44-52, 57-65 -/
def values {α} (E : Env) (o : Nat) (required : Bool) (loader : Str → Api α) : Api (List (Option α)) := do
  setTouched o
  each (fun y => value E y required loader) (← listItems E o)

/-- `touch` — list.py:67-71 -/
def touchList (E : Env) (o : Nat) : Api Unit := do
  setTouched o
  let _ ← each setTouched (← listItems E o)

/-! ## `fieldset.py` -/

/-- `if key in map: map[key].append(instance) else: map[key] = [instance]` -/
def addTo (m : List (Str × List Nat)) (k : Str) (o : Nat) : List (Str × List Nat) :=
  if (m.lookup k).isSome then m.map fun p => if p.1 = k then (p.1, p.2 ++ [o]) else p
  else m ++ [(k, [o])]

/-- The dictionary of instances, in the order in which they were made. -/
def indexOf (kos : List (Str × Nat)) : List (Str × List Nat) := kos.foldl (fun m p => addTo m p.1 p.2) []

/-- `_entries` — fieldset.py:17-23, 52-72. `instEntries` gives the entries in the order in which they are made and in the order of the list. -/
def fieldsetEntries (E : Env) (o : Nat) : Api (List Nat) := do
  let x ← obj o
  match x.children with
  | some ys => pure ys
  | none =>
    match instEntries E.ctx.heap E.depth x.ref.idx [] with
    | .error e => raise (.py e)
    | .ok (made, listed) => do
      let ys ← create (made.map fun r => { cls := .entry, ref := r, parent := some o })
      let zs := listed.map fun r => ys.getD (made.idxOf r) 0
      assign o fun x => { x with children := some zs, index := indexOf ((made.map fun r => (E.ctx.heap.key? r).getD []).zip ys) }
      pure zs

/-- `if not key: … else: …` — fieldset.py:28-32, 105-109; section.py:27-31 and the like -/
def named (all : Api (List Nat)) (o : Nat) : Option Str → Api (List Nat)
  | none | some [] => all
  | some (c :: k) => do
    let _ ← all
    let x ← obj o
    pure ((x.index.lookup (c :: k)).getD [])

/-- `_entry` — fieldset.py:25-50. `required` is never `None` (`entry` does not give it, fieldset.py:111-112), so there are no missing entries. -/
def entry (E : Env) (o : Nat) (key : Option Str) (required : Bool) : Api (Option Nat) := do
  setTouched o
  let ys ← named (fieldsetEntries E o) o key
  let x ← obj o
  match ys with
  | [] =>
    if required || x.required then raiseValidation (missingElement E.o E.ctx key x.ref.idx .missingFieldsetEntry)
    else pure none
  | [y] => pure (some y)
  | _ => do
    let rs ← each (fun y => do pure (← obj y).ref) ys
    raiseValidation (unexpectedMultipleElements E.o E.ctx key rs .expectedSingleFieldsetEntry)

/-- `_untouched` — fieldset.py:77-83 -/
def untouchedFieldset (E : Env) (o : Nat) : Api (Option Ref) := do
  let x ← obj o
  if x.touched then do untouchedIn (← fieldsetEntries E o) else pure (some x.ref)

/-- `(skip and key in skip) or (only and key not in only)` — fieldset.py:92, section.py:277; without `skip` or `only` the lists are empty. -/
def skipped (only skip : List Str) (k : Str) : Bool := skip.contains k || (!only.isEmpty && !only.contains k)

/-- `assert_all_touched` — fieldset.py:88-100; `entry['instruction']` is not possible. -/
def assertEntriesTouched (E : Env) (o : Nat) (message : Option (MsgArg Nat)) (only skip : List Str) : Api Unit := do
  let _ ← fieldsetEntries E o
  let x ← obj o
  match ← firstSome (fun y => do
      let c ← obj y
      pure (if c.touched then none else some y)) ((x.index.filter fun p => !skipped only skip p.1).flatMap (·.2)) with
  | none => pure ()
  | some y => do
    match message with
    | some (.fn f) => do let _ ← f y
    | _ => pure ()
    raise (.py .typeError)

/-- `entries` — fieldset.py:102-109 -/
def entries (E : Env) (o : Nat) (key : Option Str) : Api (List Nat) := do
  setTouched o
  named (fieldsetEntries E o) o key

/-- `touch` — fieldset.py:123-127 -/
def touchFieldset (E : Env) (o : Nat) : Api Unit := do
  setTouched o
  let _ ← each setTouched (← fieldsetEntries E o)

/-! ## `section.py` -/

/-- `_instantiate_elements` — section.py:157-175, like `instElements`, but with the elements that have been made if the recursion is too deep. -/
def madeElements (h : Heap) : Nat → Nat → List Nat → Option PyExc × List Nat
  | 0, _, acc => (some .recursionError, acc)
  | n + 1, s, acc =>
    match (h.at s).mirror with
    | some m => madeElements h n m acc
    | none =>
      let acc := acc ++ (h.at s).elements.filter fun i => !(acc.map fun j => (h.at j).key).contains (h.at i).key
      match (h.at s).extend with
      | none => (none, acc)
      | some t => madeElements h n t acc

/-- `_elements` — section.py:51-57 -/
def sectionElements (E : Env) (o : Nat) : Api (List Nat) := do
  let x ← obj o
  match x.children with
  | some ys => pure ys
  | none => do
    let (failed, is) := madeElements E.ctx.heap E.depth x.ref.idx []
    let ys ← create (is.map fun i => { cls := .sectionElement, ref := .elem i, parent := some o })
    assign o fun x => { x with children := some ys, index := indexOf ((is.map fun i => (E.ctx.heap.at i).key).zip ys) }
    match failed with
    | some e => raise (.py e)
    | none => pure ys

/-- What is asked for: an element, or one of a kind. -/
inductive Want where
  | any | kind (k : Kind)
deriving DecidableEq, Repr

/-- The messages if there is none. -/
def Want.missing : Want → MsgName
  | .any => .missingElement
  | .kind .empty => .missingEmpty
  | .kind .field => .missingField
  | .kind .fieldset => .missingFieldset
  | .kind .list => .missingList
  | .kind .section => .missingSection

/-- The messages if there are several. -/
def Want.single : Want → MsgName
  | .any => .expectedSingleElement
  | .kind .empty => .expectedSingleEmpty
  | .kind .field => .expectedSingleField
  | .kind .fieldset => .expectedSingleFieldset
  | .kind .list => .expectedSingleList
  | .kind .section => .expectedSingleSection

/-- The objects of `missing/`: what was asked for (`none` is an entry), with which key, of a section or of something missing. They never change. -/
inductive Missing where
  | under (s : Nat) (want : Option Want) (key : Option Str)
  | inside (parent : Missing) (want : Option Want) (key : Option Str)
deriving DecidableEq, Repr

/-- What a single-element accessor returns. -/
inductive Got where
  | none
  | obj (o : Nat)
  | missing (m : Missing)
deriving DecidableEq, Repr

/-- `unexpected_element_type(self._context, key, element._instruction, …)` unless the type is right, then `element.to_…()` -/
def castTo (E : Env) (k : Kind) (key : Option Str) (message : MsgName) (y : Nat) : Api Nat := do
  let c ← obj y
  if k.fits (E.ctx.heap.type c.ref) then to E k y
  else raiseValidation (unexpectedElementType E.o E.ctx key c.ref message)

/-- `_element`, `_empty`, `_field`, `_fieldset`, `_list`, `_section` — section.py:24-49, 59-89, 91-123, 125-155, 177-207, 221-251 -/
def single (E : Env) (want : Want) (o : Nat) (key : Option Str) (required : Option Bool) : Api Got := do
  setTouched o
  let ys ← named (sectionElements E o) o key
  let x ← obj o
  match ys with
  | [] =>
    if required = some true ∨ x.required then raiseValidation (missingElement E.o E.ctx key x.ref.idx want.missing)
    else if required = none then pure (.missing (.under o (some want) key))
    else pure .none
  | [y] =>
    match want with
    | .any => pure (.obj y)
    | .kind k => do pure (.obj (← castTo E k key k.expected y))
  | _ => do
    let rs ← each (fun y => do pure (← obj y).ref) ys
    raiseValidation (unexpectedMultipleElements E.o E.ctx key rs want.single)

/-- The messages of `fields`, `fieldsets`, `lists` and `sections`. There is no method for empty elements. -/
def Kind.expectedMany : Kind → MsgName
  | .empty => .expectedEmpty
  | .field => .expectedFields
  | .fieldset => .expectedFieldsets
  | .list => .expectedLists
  | .section => .expectedSections

/-- `elements`, `fields`, `fieldsets`, `lists`, `sections` — section.py:292-299, 307-324, 329-344, 349-364, 411-426 -/
def several (E : Env) (want : Want) (o : Nat) (key : Option Str) : Api (List Nat) := do
  setTouched o
  let ys ← named (sectionElements E o) o key
  match want with
  | .any => pure ys
  | .kind k => each (castTo E k key k.expectedMany) ys

/-- `SectionElement._untouched` — section_element.py:15-32; the argument is what to do for a section. -/
def untouchedElement (E : Env) (deeper : Nat → Api (Option Ref)) (o : Nat) : Api (Option Ref) := do
  let x ← obj o
  if x.yielded.isNone then pure (some x.ref)
  else do
    let e ← obj ((x.made .empty).getD 0)
    let f ← obj ((x.made .field).getD 0)
    if (x.made .empty).isSome ∧ e.touched = false then pure (some x.ref)
    else if (x.made .field).isSome ∧ f.touched = false then pure (some x.ref)
    else
      match x.made .fieldset, x.made .list, x.made .section with
      | some y, _, _ => untouchedFieldset E y
      | none, some y, _ => untouchedList E y
      | none, none, some y => deeper y
      | none, none, none => pure none

/-- `_untouched` — section.py:253-262; the number is fuel. -/
def untouchedSection (E : Env) : Nat → Nat → Api (Option Ref)
  | 0, _ => raise (.py .recursionError)
  | n + 1, o => do
    let x ← obj o
    if x.touched then do firstSome (untouchedElement E (untouchedSection E n)) (← sectionElements E o)
    else pure (some x.ref)

/-- The number of objects, which bounds how deep sections are nested. -/
def objectCount : Api Nat := fun w => (.ok w.objs.length, w)

/-- `all_elements_required` — section.py:264-271; the number is fuel. `element._yielded` is not there if the element was not yielded. -/
def requireAll (E : Env) : Nat → Bool → Nat → Api Unit
  | 0, _, _ => raise (.py .recursionError)
  | n + 1, required, o => do
    assign o fun x => { x with required := required }
    let _ ← each (fun y => do
      let c ← obj y
      if E.ctx.heap.type c.ref = .section then
        if c.yielded.isNone then raise (.py .attributeError)
        else do requireAll E n required (← to E .section y)
      else if E.ctx.heap.type c.ref = .fieldset then
        if c.yielded.isNone then raise (.py .attributeError)
        else do assign (← to E .fieldset y) fun x => { x with required := required }
      else pure ()) (← sectionElements E o)

/-- `assert_all_touched` — section.py:273-287 -/
def assertAllTouched (E : Env) (o : Nat) (message : Option (MsgArg Nat)) (only skip : List Str) : Api Unit := do
  let _ ← sectionElements E o
  let x ← obj o
  let n ← objectCount
  match ← firstSome (untouchedElement E (untouchedSection E (n + 1))) ((x.index.filter fun p => !skipped only skip p.1).flatMap (·.2)) with
  | none => pure ()
  | some r => do
    let message ← (match message with
      | none => pure none
      | some (.text s) => pure (some s)
      | some (.fn f) => do
        let y ← create [{ cls := .element, ref := r, parent := some o }]
        some <$> f (y.headD 0))
    raiseValidation (unexpectedElement E.o E.ctx message r)

/-- `if hasattr(self, '_…'): …` -/
def ifMade (made : Option Nat) (f : Nat → Api Unit) : Api Unit :=
  match made with
  | some y => f y
  | none => pure ()

/-- `SectionElement.touch` — section_element.py:98-116; the argument is what to do for a section. -/
def touchElement (E : Env) (deeper : Nat → Api Unit) (o : Nat) : Api Unit := do
  let x ← obj o
  if x.yielded.isNone then pure ()
  else do
    ifMade (x.made .empty) setTouched
    ifMade (x.made .field) setTouched
    ifMade (x.made .fieldset) (touchFieldset E)
    ifMade (x.made .list) (touchList E)
    ifMade (x.made .section) deeper

/-- `touch` — section.py:428-432; the number is fuel. -/
def touchSection (E : Env) : Nat → Nat → Api Unit
  | 0, _ => raise (.py .recursionError)
  | n + 1, o => do
    setTouched o
    let _ ← each (touchElement E (touchSection E n)) (← sectionElements E o)

/-- `parent` of a section — section.py:384-388: nothing unless it is the document, which has none. -/
def sectionParent (E : Env) (o : Nat) : Api (Option Nat) := do
  let x ← obj o
  if E.ctx.heap.type x.ref ≠ .document then pure none
  else
    match x.parent with
    | some p => pure (some p)
    | none => raise (.py .keyError)

/-- `parent` of the other classes — empty.py:9-10, field.py:38-39, fieldset.py:117-118, fieldset_entry.py:9-10, list.py:54-55, list_item.py:9-10. What is made of an element
that `lookup` returned has no `_parent`: fieldsets and lists then make a new section each time, the others ask a dictionary for an attribute. -/
def parentOf (E : Env) (o : Nat) : Api Nat := do
  let x ← obj o
  match x.parent with
  | some p => pure p
  | none =>
    if x.cls = .of .fieldset ∨ x.cls = .of .list then
      match (E.ctx.heap.at x.ref.idx).parent with
      | some s => do
        let y ← create [Kind.new .section (.elem s) none false]
        pure (y.headD 0)
      | none => raise (.py .keyError)
    else raise (.py .attributeError)

/-! ## `missing/` -/

/-- `_missing_error` — missing_element_base.py:6-7, section.py:209-219. The one of the outermost section is called with the outermost missing element. -/
def missingError {α} (E : Env) : Missing → Api α
  | .inside p _ _ => missingError E p
  | .under s want key => do
    let x ← obj s
    raiseValidation (missingElement E.o E.ctx key x.ref.idx (match want with
      | some (.kind .field) => .missingField
      | some (.kind .fieldset) => .missingFieldset
      | some (.kind .list) => .missingList
      | some (.kind .section) => .missingSection
      | _ => .missingElement))

/-- What a missing element is missing as. -/
def Missing.want : Missing → Option Want
  | .under _ w _ => w
  | .inside _ w _ => w

/-- The key of a missing element. -/
def Missing.key : Missing → Option Str
  | .under _ _ k => k
  | .inside _ _ k => k

/-- `to_…` of a missing element — missing_section_element.py:15-28: the same, missing as something else. -/
def Missing.as (want : Want) : Missing → Missing
  | .under s _ k => .under s (some want) k
  | .inside p _ k => .inside p (some want) k

/-- `parse` — parse.py:4-7, after the context has been made. -/
def World.start : World := ⟨[{ cls := .of .section, ref := .elem 0 }], .empty⟩

/-- The element in what `lookup` returns — lookup.py:231-234, in a context that was made for it. -/
def World.found (r : Ref) : World := ⟨[{ cls := .element, ref := r }], .empty⟩

end Eno.El
