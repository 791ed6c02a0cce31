import Verif.Elements

/-!
# Programs that use the elements

Every public method of the classes of `/repo/python/enolib/elements/`, called on any object. Methods made by `register` (register.py:11-30, `Register.lean`) call these with a loader.
-/

namespace Eno.El

/-- What methods return. -/
inductive Val where
  | none
  | bool (b : Bool)
  | nat (n : Nat)
  | text (s : Str)
  | raw (x : Raw)
  | error (e : ErrObj)
  | obj (o : Nat)
  | missing (m : Missing)
  | list (xs : List Val)

/-- A loader, which may use the elements itself. -/
abbrev Loader := Str → Api Val

/-- The loader that the methods for strings amount to. -/
def asText : Loader := fun s => pure (.text s)

/-- The public methods with their arguments. `required` of `one` and `entry` is `none` for `field`, `some false` for `optional_field` and `some true` for `required_field`, and so on. -/
inductive Method where
  -- all classes
  | comment (required : Bool) (loader : Loader)
  | commentError (message : MsgArg (Option Str))
  | error (message : MsgArg Nat)
  | key (loader : Loader)
  | keyError (message : MsgArg Str)
  | raw
  | repr
  | touch
  -- `Field`, `FieldsetEntry`, `ListItem`
  | value (required : Bool) (loader : Loader)
  | valueError (message : MsgArg (Option Str))
  -- `SectionElement`, `Element`
  | to (k : Kind)
  | yields (k : Kind)
  -- `Element`
  | toEntry
  | toItem
  | yieldsEntry
  | yieldsItem
  -- `List`
  | items
  | length
  | values (required : Bool) (loader : Loader)
  -- `Fieldset`
  | entries (key : Option Str)
  | entry (key : Option Str) (required : Option Bool)
  | allEntriesRequired (required : Bool)
  -- `Fieldset`, `Section`
  | assertAllTouched (message : Option (MsgArg Nat)) (only skip : List Str)
  -- `Section`
  | one (want : Want) (key : Option Str) (required : Option Bool)
  | many (want : Want) (key : Option Str)
  | allElementsRequired (required : Bool)
  -- all but `SectionElement`
  | parent

/-- `Optional` results. -/
def Val.opt : Option Val → Val
  | some v => v
  | Option.none => .none

/-- Lists of objects. -/
def Val.objs (os : List Nat) : Val := .list (os.map .obj)

/-- A method that the class does not have. -/
def noMethod {α} : Api α := raise (.py .attributeError)

/-- `touch`, which several classes override. -/
def touch (E : Env) (cls : Cls) (o : Nat) : Api Unit :=
  match cls with
  | .of .section => do touchSection E ((← objectCount) + 1) o
  | .of .fieldset => touchFieldset E o
  | .of .list => touchList E o
  | .sectionElement | .element => do touchElement E (touchSection E ((← objectCount) + 1)) o
  | _ => setTouched o

/-- `self._instruction['key']` -/
def ownKey (E : Env) (o : Nat) : Api Str := do
  let x ← obj o
  match E.ctx.heap.key? x.ref with
  | some k => pure k
  | none => raise (.py .keyError)

/-- `_print_value` — value_element_base.py:6-15. `value.replace("\n", '\n')` replaces line breaks by line breaks. -/
def printValue (E : Env) (o : Nat) : Api Str := do
  match ← valueOf E o with
  | none | some [] => pure (chars!"None")
  | some v => pure (if v.length > 14 then v.take 11 ++ chars!"..." else v)

/-- `__repr__` of all classes — element.py:10-11, empty.py:6-7, field.py:7-8, fieldset.py:14-15, fieldset_entry.py:6-7, list.py:7-8, list_item.py:6-7, section.py:18-22,
section_element.py:12-13. -/
def repr (E : Env) (cls : Cls) (o : Nat) : Api Str := do
  let x ← obj o
  match cls with
  | .of .empty => do pure (chars!"<class Empty key=" ++ (← ownKey E o) ++ chars!">")
  | .of .field => do pure (chars!"<class Field key=" ++ (← ownKey E o) ++ chars!" value=" ++ (← printValue E o) ++ chars!">")
  | .of .fieldset => do pure (chars!"<class Fieldset key=" ++ (← ownKey E o) ++ chars!" entries=" ++ decimal (← fieldsetEntries E o).length ++ chars!">")
  | .of .list => do pure (chars!"<class List key=" ++ (← ownKey E o) ++ chars!" items=" ++ decimal (← listItems E o).length ++ chars!">")
  | .of .section =>
    if E.ctx.heap.type x.ref = .document then do pure (chars!"<class Section document elements=" ++ decimal (← sectionElements E o).length ++ chars!">")
    else do pure (chars!"<class Section key=\"" ++ (← ownKey E o) ++ chars!"\" elements=" ++ decimal (← sectionElements E o).length ++ chars!">")
  | .sectionElement => do pure (chars!"<class SectionElement key=" ++ (← ownKey E o) ++ chars!">")
  | .element => do pure (chars!"<class Element key=" ++ (← ownKey E o) ++ chars!">")
  | .entry => do pure (chars!"<class FieldsetEntry key=" ++ (← ownKey E o) ++ chars!" value=" ++ (← printValue E o) ++ chars!">")
  | .item => do pure (chars!"<class ListItem value=" ++ (← printValue E o) ++ chars!">")

/-- Call a method. -/
def run (E : Env) (o : Nat) (m : Method) : Api Val := do
  let x ← obj o
  match m, x.cls with
  | .comment required loader, _ => Val.opt <$> comment E o required loader
  | .commentError message, _ => .error <$> commentErrorOf E o message
  | .error message, _ => .error <$> errorOf E o message
  | .key loader, _ => key E o loader
  | .keyError message, _ => .error <$> keyErrorOf E o message
  | .raw, _ => .raw <$> rawOf E o
  | .repr, cls => .text <$> repr E cls o
  | .touch, cls => do touch E cls o; pure .none
  | .value required loader, .of .field => Val.opt <$> value E o required loader
  | .value required loader, .entry => Val.opt <$> value E o required loader
  | .value required loader, .item => Val.opt <$> value E o required loader
  | .valueError message, .of .field => .error <$> valueErrorOf E o message
  | .valueError message, .entry => .error <$> valueErrorOf E o message
  | .valueError message, .item => .error <$> valueErrorOf E o message
  | .to k, .sectionElement => .obj <$> to E k o
  | .to k, .element => .obj <$> to E k o
  | .yields k, .sectionElement => .bool <$> yields E k o
  | .yields k, .element => .bool <$> yields E k o
  | .yieldsEntry, .element => pure (.bool (E.ctx.heap.type x.ref = .fieldsetEntry))          -- element.py:31-32
  | .yieldsItem, .element => pure (.bool (E.ctx.heap.type x.ref = .listItem))                -- element.py:34-35
  | .items, .of .list => .objs <$> items E o
  | .length, .of .list => .nat <$> itemCount E o
  | .values required loader, .of .list => (fun vs => .list (vs.map .opt)) <$> values E o required loader
  | .entries key, .of .fieldset => .objs <$> entries E o key
  | .entry key required, .of .fieldset => (fun r => .opt (r.map .obj)) <$> entry E o key (required = some true)   -- fieldset.py:111-121
  | .allEntriesRequired required, .of .fieldset => do assign o fun x => { x with required := required }; pure .none   -- fieldset.py:85-86
  | .assertAllTouched message only skip, .of .fieldset => do assertEntriesTouched E o message only skip; pure .none
  | .assertAllTouched message only skip, .of .section => do assertAllTouched E o message only skip; pure .none
  | .one want key required, .of .section => do
    match ← single E want o key required with
    | .none => pure .none
    | .obj y => pure (.obj y)
    | .missing m => pure (.missing m)
  | .many (.kind .empty) _, _ => noMethod
  | .many want key, .of .section => .objs <$> several E want o key
  | .allElementsRequired required, .of .section => do requireAll E ((← objectCount) + 1) required o; pure .none
  | .parent, .of .section => (fun r => .opt (r.map .obj)) <$> sectionParent E o
  | .parent, .sectionElement => noMethod
  | .parent, .element => noMethod
  | .parent, _ => .obj <$> parentOf E o
  -- `toEntry` and `toItem` read an attribute that is never set (element.py:14, 23)
  | _, _ => noMethod

/-- The names of the classes of missing objects. -/
def missingName : Option Want → Str
  | none => chars!"MissingFieldsetEntry"
  | some .any => chars!"MissingSectionElement"
  | some (.kind .empty) => chars!"MissingEmpty"
  | some (.kind .field) => chars!"MissingField"
  | some (.kind .fieldset) => chars!"MissingFieldset"
  | some (.kind .list) => chars!"MissingList"
  | some (.kind .section) => chars!"MissingSection"

/-- `__repr__` — missing/*.py, the first method of each class. -/
def missingRepr (x : Missing) : Str :=
  match x.key with
  | none | some [] => chars!"<class " ++ missingName x.want ++ chars!">"
  | some key => chars!"<class " ++ missingName x.want ++ chars!" key=" ++ key ++ chars!">"

/-- Methods of missing objects — missing/*.py. -/
def runMissing (E : Env) (x : Missing) (m : Method) : Api Val :=
  match m, x.want with
  -- missing_element_base.py:6-28
  | .comment required _, _ => if required then missingError E x else pure .none
  | .key _, _ => missingError E x
  | .raw, _ => pure .none
  | .repr, _ => pure (.text (missingRepr x))
  -- missing_value_element_base.py:4-14
  | .value required _, some (.kind .field) => if required then missingError E x else pure .none
  | .value required _, none => if required then missingError E x else pure .none
  -- missing_section_element.py:15-43
  | .to k, some .any => pure (.missing (x.as (.kind k)))
  | .yields _, some .any => pure (.bool true)
  -- missing_list.py:11-23
  | .items, some (.kind .list) => pure (.list [])
  | .values _ _, some (.kind .list) => pure (.list [])
  -- missing_fieldset.py:11-21
  | .entries _, some (.kind .fieldset) => pure (.list [])
  | .entry key required, some (.kind .fieldset) =>
    match required with
    | some true => missingError E x
    | some false => pure .none
    | none => pure (.missing (.inside x none key))
  -- missing_section.py:15-82
  | .many (.kind .empty) _, _ => noMethod
  | .many _ _, some (.kind .section) => pure (.list [])
  | .one want key required, some (.kind .section) =>
    match required with
    | some true => missingError E x
    | some false => pure .none
    | none => pure (.missing (.inside x (some want) key))
  | _, _ => noMethod

end Eno.El
