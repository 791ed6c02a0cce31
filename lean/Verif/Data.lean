import Verif.Tok

/-!
# Instructions

The Python code passes around mutable dictionaries ("instructions"). A dictionary with optional keys is a record
whose optional keys are `Option` fields (`'x' in d` is `d.x ≠ none`).

Section-level elements (fields, lists, fieldsets, empty elements, multiline fields, sections and the document)
are shared and mutated, so they live in a heap `List Elem` and are referred to by position; position 0 is
the document. Comments, continuations, list items, fieldset entries and multiline lines are owned by exactly one element
while analysing and are stored inline.
-/

namespace Eno

/-- `InstructionType` — `/repo/python/enolib/constants.py:11-25`. The value `'MULTILINE_FIELD_END'` that
`analyzer.py:392` stores is a string instead of the enum member; it is `mlEnd` here, no code compares against it. -/
inductive Ty where
  | comment | continuation | document | empty | field | fieldset | fieldsetEntry | list | listItem
  | mlBegin | mlEnd | mlValue | section | unparsed
deriving DecidableEq, Repr, Inhabited

/-- The keys of the `ranges` dictionaries. -/
inductive RangeName where
  | line | elementOperator | escapeBeginOperator | escapeEndOperator | key | value | itemOperator
  | entryOperator | spacedLineContinuationOperator | directLineContinuationOperator | sectionOperator
  | template | deepCopyOperator | copyOperator | multilineFieldOperator | commentOperator | comment
deriving DecidableEq, Repr

/-- A `ranges` dictionary in insertion order. -/
abbrev Ranges := List (RangeName × (Nat × Nat))

/-- What every instruction has: `line` and `ranges` (`analyzer.py:73-78`). -/
structure Base where
  line : Nat
  ranges : Ranges
deriving DecidableEq, Repr, Inhabited

/-- `instruction['ranges'][name]`, `none` is `KeyError`. -/
def Base.range? (b : Base) (n : RangeName) : Option (Nat × Nat) := b.ranges.lookup n

/-- `instruction['ranges']['line']`. Every instruction has this range (it is written on creation), so the default is never
used; see `Proofs/AnalyzerInv.lean`. -/
def Base.span (b : Base) : Nat × Nat := (b.range? .line).getD (0, 0)

/-- A comment line — analyzer.py:403-417 -/
structure Comment extends Base where
  comment : Option Str
deriving DecidableEq, Repr, Inhabited

/-- A line continuation — analyzer.py:192-245 -/
structure Cont extends Base where
  spaced : Bool
  value : Option Str
deriving DecidableEq, Repr, Inhabited

/-- A list item or fieldset entry — analyzer.py:120-190. List items have no `key`. -/
structure Sub extends Base where
  isEntry : Bool
  key : Option Str
  value : Option Str
  comments : Option (List Comment)
  continuations : Option (List Cont)
deriving DecidableEq, Repr, Inhabited

/-- A section-level element, a section or the document (`analyzer.py:14-17`; the document has neither `line`, `ranges` nor
`key`, the fields are unused there and `Elem.isDocument` guards reads).
`elements` exists exactly on sections and the document. `copy` holds the template name under which the copy data that
`element['copy']` points to is filed. -/
structure Elem extends Base where
  type : Ty
  key : Str
  value : Option Str := none
  template : Option Str := none
  comments : Option (List Comment) := none
  continuations : Option (List Cont) := none
  items : Option (List Sub) := none
  entries : Option (List Sub) := none
  elements : List Nat := []
  parent : Option Nat := none
  lines : Option (List Base) := none
  fin : Option Base := none
  deepCopy : Bool := false
  deepResolve : Bool := false
  copy : Option Str := none
  mirror : Option Nat := none
  extend : Option Nat := none
deriving DecidableEq, Repr

/-- The document as created by `Analyzer.__init__` — analyzer.py:14-17 -/
def Elem.document : Elem := { line := 0, ranges := [], type := .document, key := [] }

instance : Inhabited Elem := ⟨Elem.document⟩

/-- The heap of section-level elements. -/
abbrev Heap := List Elem

/-- Read a heap cell. References produced by the model are always in range (proved as part of the invariants). -/
def Heap.at (h : Heap) (i : Nat) : Elem := h.getD i Elem.document

/-- An instruction that can be read: a section-level element (position in the heap), an item or an entry (position in its element). -/
inductive Ref where
  | elem (i : Nat)
  | item (i k : Nat)
  | entry (i k : Nat)
deriving DecidableEq, Repr, Inhabited

/-- The item or entry behind a reference. -/
def Heap.sub? (h : Heap) : Ref → Option Sub
  | .elem _ => none
  | .item i k => ((h.at i).items.getD [])[k]?
  | .entry i k => ((h.at i).entries.getD [])[k]?

/-- What `raw` returns: `type` is the one that `pretty()` is called on. -/
inductive Raw where
  /-- an empty element, field, item or entry: comment (if the key is there), key, value (if the key is there) -/
  | leaf (type : Ty) (comment : Option (Option Str)) (key : Option Str) (value : Option (Option Str))
  /-- a list, fieldset, section or document -/
  | node (type : Ty) (comment : Option (Option Str)) (key : Option Str) (children : List Raw)

/-- An entry of `context.meta`: a comment (analyzer.py:85, 216, 241, 459) or a line of an error context
(analyzer.py:27-53; the first one has no `type`, the others are `UNPARSED`). -/
inductive Meta where
  | comment (c : Comment)
  | raw (b : Base) (type : Option Ty)
deriving DecidableEq, Repr

/-- The `line`/`ranges` part of a meta entry. -/
def Meta.base : Meta → Base
  | .comment c => c.toBase
  | .raw b _ => b

/-- `meta['type']`. -/
def Meta.type : Meta → Option Ty
  | .comment _ => some .comment
  | .raw _ t => t

/-- An entry of `_copy_sections` / `_copy_non_section_elements` — analyzer.py:306-312, 447-453; the `template` key is added
by the resolver (resolver.py:135, 144). -/
structure CopyData where
  targets : List Nat
  template : Option Nat := none
deriving DecidableEq, Repr, Inhabited

/-- The copy dictionaries in insertion order. An attribute that does not exist is an empty dictionary
(the attribute is created together with its first entry). -/
abbrev Copies := List (Str × CopyData)

/-- The state of the `Context` that later phases see. -/
structure Ctx where
  input : Str
  heap : Heap
  metas : List Meta
  lineCount : Nat
  copySections : Copies := []
  copyNonSections : Copies := []
deriving DecidableEq, Repr

/-- The `ParseError` kinds raised during analysis — `/repo/python/enolib/errors/parsing.py`. -/
inductive FailKind where
  | invalidLine
  | missingListForListItem
  | missingFieldsetForFieldsetEntry
  | missingElementForContinuation
  | sectionHierarchyLayerSkip (superSection : Nat)
  | unterminatedMultilineField (field : Nat)
deriving DecidableEq, Repr

/-- How the analysis can end abnormally. `parse` carries the context at the time of the error and the instruction that the error
is about. -/
inductive AExc where
  | parse (kind : FailKind) (ctx : Ctx) (instruction : Base)
  | keyError
  | outOfFuel
deriving DecidableEq, Repr

end Eno
