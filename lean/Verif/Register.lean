import Verif.Calls

/-!
# `/repo/python/enolib/register.py`

`register` adds methods to the classes of elements. Classes are tables from names to functions, `setattr` adds to them and a method is looked up in the class of the object
and then in its bases.

Not modelled: the attributes that Python gives to all objects (their names begin and end with two underscores), and the attributes of objects rather than classes.
-/

namespace Eno.El

/-- The classes of elements and of missing elements with their bases. `missing none` is `MissingFieldsetEntry` and `missing (some .any)` is `MissingSectionElement`. -/
inductive PyClass where
  | elementBase | valueElementBase | of (c : Cls)
  | missingElementBase | missingValueElementBase | missing (want : Option Want)
deriving DecidableEq, Repr

/-- The class and its bases in the order in which attributes are looked up — the `class` lines of elements/*.py and missing/*.py. -/
def PyClass.mro : PyClass → List PyClass
  | .elementBase => [.elementBase]
  | .valueElementBase => [.valueElementBase, .elementBase]
  | .of (.of .field) => [.of (.of .field), .valueElementBase, .elementBase]
  | .of .entry => [.of .entry, .valueElementBase, .elementBase]
  | .of .item => [.of .item, .valueElementBase, .elementBase]
  | .of .element => [.of .element, .of .sectionElement, .elementBase]
  | .of c => [.of c, .elementBase]
  | .missingElementBase => [.missingElementBase]
  | .missingValueElementBase => [.missingValueElementBase, .missingElementBase]
  | .missing none => [.missing none, .missingValueElementBase, .missingElementBase]
  | .missing (some (.kind .field)) => [.missing (some (.kind .field)), .missingValueElementBase, .missingElementBase]
  | .missing w => [.missing w, .missingElementBase]

/-- The names that the body of the class defines. -/
def PyClass.body : PyClass → List Str
  -- element_base.py
  | .elementBase => [chars!"__init__", chars!"_comment", chars!"_key", chars!"comment_error", chars!"error", chars!"key", chars!"key_error", chars!"optional_comment",
    chars!"optional_string_comment", chars!"raw", chars!"required_comment", chars!"required_string_comment", chars!"string_key", chars!"touch"]
  -- value_element_base.py
  | .valueElementBase => [chars!"_print_value", chars!"_value", chars!"optional_string_value", chars!"optional_value", chars!"required_string_value", chars!"required_value",
    chars!"value_error"]
  -- empty.py
  | .of (.of .empty) => [chars!"__repr__", chars!"parent"]
  -- field.py
  | .of (.of .field) => [chars!"__repr__", chars!"_value", chars!"optional_string_value", chars!"optional_value", chars!"parent", chars!"required_string_value",
    chars!"required_value"]
  -- fieldset.py
  | .of (.of .fieldset) => [chars!"__init__", chars!"__repr__", chars!"_entries", chars!"_entry", chars!"_instantiate_entries", chars!"_missingError", chars!"_untouched",
    chars!"all_entries_required", chars!"assert_all_touched", chars!"entries", chars!"entry", chars!"optional_entry", chars!"parent", chars!"required_entry", chars!"touch"]
  -- list.py
  | .of (.of .list) => [chars!"__repr__", chars!"_instantiate_items", chars!"_items", chars!"_untouched", chars!"items", chars!"length", chars!"optional_string_values",
    chars!"optional_values", chars!"parent", chars!"required_string_values", chars!"required_values", chars!"touch"]
  -- section.py
  | .of (.of .section) => [chars!"__init__", chars!"__repr__", chars!"_element", chars!"_elements", chars!"_empty", chars!"_field", chars!"_fieldset",
    chars!"_instantiate_elements", chars!"_list", chars!"_missing_error", chars!"_section", chars!"_untouched", chars!"all_elements_required", chars!"assert_all_touched",
    chars!"element", chars!"elements", chars!"empty", chars!"field", chars!"fields", chars!"fieldset", chars!"fieldsets", chars!"list", chars!"lists",
    chars!"optional_element", chars!"optional_empty", chars!"optional_field", chars!"optional_fieldset", chars!"optional_list", chars!"optional_section", chars!"parent",
    chars!"required_element", chars!"required_empty", chars!"required_field", chars!"required_fieldset", chars!"required_list", chars!"required_section", chars!"section",
    chars!"sections", chars!"touch"]
  -- section_element.py
  | .of .sectionElement => [chars!"__repr__", chars!"_untouched", chars!"to_empty", chars!"to_field", chars!"to_fieldset", chars!"to_list", chars!"to_section", chars!"touch",
    chars!"yields_empty", chars!"yields_field", chars!"yields_fieldset", chars!"yields_list", chars!"yields_section"]
  -- element.py
  | .of .element => [chars!"__repr__", chars!"to_fieldset_entry", chars!"to_list_item", chars!"yields_fieldset_entry", chars!"yields_list_item"]
  -- fieldset_entry.py
  | .of .entry => [chars!"__repr__", chars!"parent"]
  -- list_item.py
  | .of .item => [chars!"__repr__", chars!"parent"]
  -- missing_element_base.py
  | .missingElementBase => [chars!"__init__", chars!"_missing_error", chars!"key", chars!"optional_comment", chars!"optional_string_comment", chars!"raw",
    chars!"required_comment", chars!"required_string_comment", chars!"string_key"]
  -- missing_value_element_base.py
  | .missingValueElementBase => [chars!"optional_string_value", chars!"optional_value", chars!"required_string_value", chars!"required_value"]
  -- missing_fieldset_entry.py, missing_empty.py, missing_field.py
  | .missing none => [chars!"__repr__"]
  | .missing (some (.kind .empty)) => [chars!"__repr__"]
  | .missing (some (.kind .field)) => [chars!"__repr__"]
  -- missing_fieldset.py
  | .missing (some (.kind .fieldset)) => [chars!"__repr__", chars!"entries", chars!"entry", chars!"optional_entry", chars!"required_entry"]
  -- missing_list.py
  | .missing (some (.kind .list)) => [chars!"__repr__", chars!"items", chars!"optional_string_values", chars!"optional_values", chars!"required_string_values",
    chars!"required_values"]
  -- missing_section.py
  | .missing (some (.kind .section)) => [chars!"__repr__", chars!"element", chars!"elements", chars!"empty", chars!"field", chars!"fields", chars!"fieldset",
    chars!"fieldsets", chars!"list", chars!"lists", chars!"optional_element", chars!"optional_empty", chars!"optional_field", chars!"optional_fieldset",
    chars!"optional_list", chars!"optional_section", chars!"required_element", chars!"required_empty", chars!"required_field", chars!"required_fieldset",
    chars!"required_list", chars!"required_section", chars!"section", chars!"sections"]
  -- missing_section_element.py
  | .missing (some .any) => [chars!"__repr__", chars!"to_empty", chars!"to_field", chars!"to_fieldset", chars!"to_list", chars!"to_section", chars!"yields_empty",
    chars!"yields_field", chars!"yields_fieldset", chars!"yields_list", chars!"yields_section"]

/-- The methods that take a loader and have a version for each registered one: `key`, `optional_comment`, `required_comment`, `optional_value` and so on. -/
inductive Accessor where
  | key | comment (required : Bool) | value (required : Bool) | values (required : Bool)
deriving DecidableEq, Repr

/-- What an attribute is: a function from the body of a class, or a `lambda self: self.….(function)` that `register` made. -/
inductive Attr (F : Type) where
  | native (c : PyClass) (name : Str)
  | calling (a : Accessor) (f : F)
deriving DecidableEq, Repr

/-- What was assigned to attributes of classes, the latest first. -/
abbrev Registry (F : Type) := List ((PyClass × Str) × Attr F)

/-- `setattr(cls, name, value)` -/
def Registry.setattr {F} (c : PyClass) (name : Str) (v : Attr F) (R : Registry F) : Registry F := ((c, name), v) :: R

/-- The attribute of the class itself. -/
def Registry.own {F} (R : Registry F) (c : PyClass) (name : Str) : Option (Attr F) :=
  match R.lookup (c, name) with
  | some v => some v
  | none => if name ∈ c.body then some (.native c name) else none

/-- The attribute, from the class or its bases; `none` is an `AttributeError`. -/
def Registry.getattr {F} (R : Registry F) (c : PyClass) (name : Str) : Option (Attr F) := c.mro.findSome? fun c => R.own c name

/-- `setattr(cls, name, cls.other)` -/
def Registry.alias {F} (c : PyClass) (name other : Str) (R : Registry F) : Registry F :=
  match R.getattr c other with
  | some v => R.setattr c name v
  | none => R

/-- `_register` — register.py:10-28. -/
def registerOne {F} (R : Registry F) (d : Str × F) : Registry F :=
  let (name, function) := d
  R
  |>.setattr .elementBase (name ++ chars!"_key") (.calling .key function)
  |>.setattr .elementBase (chars!"optional_" ++ name ++ chars!"_comment") (.calling (.comment false) function)
  |>.setattr .elementBase (chars!"required_" ++ name ++ chars!"_comment") (.calling (.comment true) function)
  |>.setattr .valueElementBase (chars!"optional_" ++ name ++ chars!"_value") (.calling (.value false) function)
  |>.setattr .valueElementBase (chars!"required_" ++ name ++ chars!"_value") (.calling (.value true) function)
  |>.setattr (.of (.of .list)) (chars!"optional_" ++ name ++ chars!"_values") (.calling (.values false) function)
  |>.setattr (.of (.of .list)) (chars!"required_" ++ name ++ chars!"_values") (.calling (.values true) function)
  |>.alias .missingElementBase (name ++ chars!"_key") (chars!"string_key")
  |>.alias .missingElementBase (chars!"optional_" ++ name ++ chars!"_comment") (chars!"optional_string_comment")
  |>.alias .missingElementBase (chars!"required_" ++ name ++ chars!"_comment") (chars!"required_string_comment")
  |>.alias .missingValueElementBase (chars!"optional_" ++ name ++ chars!"_value") (chars!"optional_string_value")
  |>.alias .missingValueElementBase (chars!"required_" ++ name ++ chars!"_value") (chars!"required_string_value")
  |>.alias (.missing (some (.kind .list))) (chars!"optional_" ++ name ++ chars!"_values") (chars!"optional_string_values")
  |>.alias (.missing (some (.kind .list))) (chars!"required_" ++ name ++ chars!"_values") (chars!"required_string_values")

/-- A positional argument of `register`: a function, with its `__name__`, or a dictionary. -/
inductive Definition (F : Type) where
  | function (name : Str) (f : F)
  | dict (items : List (Str × F))

/-- The arguments of a call of `register`. -/
structure Registration (F : Type) where
  positional : List (Definition F) := []
  named : List (Str × F) := []

/-- `register` — register.py:32-42. -/
def register {F} (R : Registry F) (r : Registration F) : Registry F :=
  let R := r.positional.foldl (fun R d =>
    match d with
    | .function name f => registerOne R (name, f)
    | .dict items => items.foldl registerOne R) R
  r.named.foldl registerOne R

/-- What `self.….(function)` is. -/
def Accessor.method (loader : Loader) : Accessor → Method
  | .key => .key loader
  | .comment required => .comment required loader
  | .value required => .value required loader
  | .values required => .values required loader

/-- The methods without arguments among the functions of the bodies that read with a loader, and what they amount to (`Calls.lean`). -/
def stringMethods : List (Str × Accessor) :=
  [(chars!"string_key", .key), (chars!"optional_string_comment", .comment false), (chars!"required_string_comment", .comment true),
   (chars!"optional_string_value", .value false), (chars!"required_string_value", .value true), (chars!"optional_string_values", .values false),
   (chars!"required_string_values", .values true)]

/-- The call that `object.name()` amounts to, if it is one that reads with a loader. `load` says what the registered functions do. -/
def Attr.method {F} (load : F → Loader) : Attr F → Option Method
  | .calling a f => some (a.method (load f))
  | .native _ name => (stringMethods.lookup name).map (·.method asText)

/-- The class of a missing object. -/
def Missing.pyClass (x : Missing) : PyClass := .missing x.want

/-- `object.name()` for methods that read with a loader. -/
def invoke {F} (E : Env) (load : F → Loader) (R : Registry F) (o : Nat) (name : Str) : Api Val := do
  let x ← obj o
  match (R.getattr (.of x.cls) name).bind (Attr.method load) with
  | some m => run E o m
  | none => noMethod

/-- `missing.name()` for methods that read with a loader. -/
def invokeMissing {F} (E : Env) (load : F → Loader) (R : Registry F) (x : Missing) (name : Str) : Api Val :=
  match (R.getattr x.pyClass name).bind (Attr.method load) with
  | some m => runMissing E x m
  | none => noMethod

end Eno.El
