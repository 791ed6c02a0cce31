import Verif.Reporter
import Verif.Grammar

/-!
# `/repo/python/enolib/errors/` and `error_types.py`

The constructors of `ParseError` and `ValidationError`: message, snippet and selection. Building an error can itself raise, so the results are
`Except PyExc`.
-/

namespace Eno

/-! ## Selections -/

/-- `{'column': …, 'index': …, 'line': …}` -/
structure Cursor where
  column : Int
  index : Nat
  line : Nat
deriving DecidableEq, Repr

/-- `{'from': …, 'to': …}` -/
structure Selection where
  start : Cursor
  stop : Cursor
deriving DecidableEq, Repr

/-- `BEGIN`, `END` -/
inductive Side where
  | beginning | ending
deriving DecidableEq, Repr

/-- `range[position]` -/
def Side.of : Side → Nat × Nat → Nat
  | .beginning, p => p.1
  | .ending, p => p.2

/-- `cursor` — selections.py:24-31 -/
def cursor (b : Base) (name : RangeName) (side : Side) : Except PyExc Cursor :=
  match b.range? name, b.range? .line with
  | some p, some l => .ok { column := (side.of p : Int) - l.1, index := side.of p, line := b.line }
  | _, _ => .error .keyError

/-- `selection` — selections.py:33-41. The parts of the end that are not given are those of the beginning, so both are complete here. -/
def selection (b : Base) (name : RangeName) (side : Side) (b' : Base) (name' : RangeName) (side' : Side) : Except PyExc Selection := do
  .ok ⟨← cursor b name side, ← cursor b' name' side'⟩

/-- `DOCUMENT_BEGIN` — selections.py:3-6 -/
def DOCUMENT_BEGIN : Selection := ⟨⟨0, 0, 0⟩, ⟨0, 0, 0⟩⟩

/-- `select_line` — selections.py:62-63 -/
def selectLine (b : Base) : Except PyExc Selection := selection b .line .beginning b .line .ending

/-- `select_key` — selections.py:59-60 -/
def selectKey (b : Base) : Except PyExc Selection := selection b .key .beginning b .key .ending

/-- `select_template` — selections.py:65-66 -/
def selectTemplate (b : Base) : Except PyExc Selection := selection b .template .beginning b .template .ending

/-- `select_comments` — selections.py:43-54 -/
def selectComments (b : Base) : Option (List Comment) → Except PyExc Selection
  | none => .error .keyError
  | some [] => selection b .line .beginning b .line .beginning
  | some [c] =>
    if c.comment.isSome then selection c.toBase .comment .beginning c.toBase .comment .ending
    else selection c.toBase .line .beginning c.toBase .line .ending
  | some (c :: d :: cs) => selection c.toBase .line .beginning ((d :: cs).getLast (by simp)).toBase .line .ending

/-- `last_in` of an item or entry — selections.py:9-12, 22 -/
def lastInSub (x : Sub) : Except PyExc Base :=
  match x.continuations with
  | none => .ok x.toBase
  | some cs =>
    match cs.getLast? with
    | some c => .ok c.toBase
    | none => .error .indexError

/-- `last_in(element[collection][-1])` if the collection is there, otherwise the element — selections.py:13-16, 22 -/
def lastInSubs (e : Elem) (subs : Option (List Sub)) : Except PyExc Base :=
  match subs with
  | none => .ok e.toBase
  | some xs =>
    match xs.getLast? with
    | some x => lastInSub x
    | none => .error .indexError

/-- `last_in` — selections.py:8-22; the first number is fuel. The document has no `line` and no `ranges`, the selection that is made from
it raises. -/
def lastIn (h : Heap) : Nat → Nat → Except PyExc Base
  | 0, _ => .error .recursionError
  | n + 1, i =>
    let e := h.at i
    match e.type with
    | .document => .error .keyError
    | .field =>
      match e.continuations with
      | none => .ok e.toBase
      | some cs =>
        match cs.getLast? with
        | some c => .ok c.toBase
        | none => .error .indexError
    | .list => lastInSubs e e.items
    | .fieldset => lastInSubs e e.entries
    | .mlBegin =>
      match e.fin with
      | some b => .ok b
      | none => .error .keyError
    | .section =>
      match e.elements.getLast? with
      | none => .ok e.toBase
      | some j => lastIn h n j
    | _ => .ok e.toBase

/-- `last_in` of anything that can be referred to. -/
def lastInRef (h : Heap) : Ref → Except PyExc Base
  | .elem i => lastIn h (h.length + 1) i
  | r =>
    match h.sub? r with
    | some x => lastInSub x
    | none => .error .keyError

/-- `select_element` — selections.py:56-57 -/
def selectElement (h : Heap) (r : Ref) : Except PyExc Selection := do
  let b ← h.base? r
  let l ← lastInRef h r
  selection b .line .beginning l .line .ending

/-! ## Messages -/

/-- The names of the messages that come with and without a key (`name` and `name_with_key`). -/
inductive MsgName where
  | missingElement | missingEmpty | missingField | missingFieldset | missingFieldsetEntry | missingList | missingSection
  | expectedEmpty | expectedField | expectedFields | expectedFieldset | expectedFieldsets | expectedList | expectedLists | expectedSection | expectedSections
  | expectedFieldsetEntry | expectedListItem
  | expectedSingleElement | expectedSingleEmpty | expectedSingleField | expectedSingleFieldset | expectedSingleFieldsetEntry | expectedSingleList
  | expectedSingleSection
deriving DecidableEq, Repr

/-- A message: which one of `/repo/python/enolib/messages/en.py`, and what is inserted (line numbers as they are printed). The wording is in
`Messages.lean`. -/
inductive Msg where
  | cyclicDependency (line : Nat) (key : Str)
  | invalidLine (line : Nat)
  | missingElementForContinuation (line : Nat)
  | missingFieldsetForFieldsetEntry (line : Nat)
  | missingListForListItem (line : Nat)
  | nonSectionElementNotFound (line : Nat) (key : Str)
  | sectionHierarchyLayerSkip (line : Nat)
  | sectionNotFound (line : Nat) (key : Str)
  | unterminatedEscapedKey (line : Nat)
  | twoOrMoreTemplatesFound (key : Str)
  | unterminatedMultilineField (key : Str) (line : Nat)
  | given (message : Str)
  | commentError (message : Str)
  | keyError (message : Str)
  | valueError (message : Str)
  | missingComment
  | missingFieldValue (key : Str)
  | missingFieldsetEntryValue (key : Str)
  | missingListItemValue (key : Str)
  | unexpectedElement
  | named (name : MsgName) (key : Option Str)
deriving DecidableEq, Repr

/-- `Error` — error_types.py:1-9; `cursor` is the beginning of the selection and `message` is text and snippet. -/
structure ErrObj where
  text : Msg
  snippet : Str
  selection : Selection
deriving DecidableEq, Repr

/-! ## `errors/parsing.py` -/

/-- `Parsing.UNTERMINATED_ESCAPED_KEY.match(line)` and `match.end(1)` — parsing.py:38-40 -/
def unterminatedKey (line : Str) : Option Nat :=
  (Grammar.UNTERMINATED_ESCAPED_KEY.run ⟨0, line, fun _ => none⟩ some).bind fun st => (st.caps 1).map (·.e)

/-- `unterminated_escaped_key` — parsing.py:101-110 -/
def unterminatedEscapedKey (o : Options) (ctx : Ctx) (b : Base) (column : Nat) : Except PyExc ErrObj := do
  let snippet ← makeSnippet o ctx (markLine .emphasize b)
  let stop ← cursor b .line .ending
  .ok ⟨.unterminatedEscapedKey (b.line + 1), snippet, ⟨column, b.span.1 + column, b.line⟩, stop⟩

/-- A report about one line — parsing.py:42-46, 49-54, 57-62, 65-70, 73-78, 94-99 -/
def lineError (o : Options) (ctx : Ctx) (b : Base) (text : Msg) : Except PyExc ErrObj := do
  let snippet ← makeSnippet o ctx (markLine .emphasize b)
  .ok ⟨text, snippet, ← selectLine b⟩

/-- `invalid_line` — parsing.py:35-46 -/
def invalidLine (o : Options) (ctx : Ctx) (b : Base) : Except PyExc ErrObj :=
  match unterminatedKey (sourceText ctx.input b) with
  | some column => unterminatedEscapedKey o ctx b column
  | none => lineError o ctx b (.invalidLine (b.line + 1))

/-- `section_hierarchy_layer_skip` — parsing.py:81-91 -/
def sectionHierarchyLayerSkip (o : Options) (ctx : Ctx) (b : Base) (sup : Nat) : Except PyExc ErrObj := do
  let snippet ← makeSnippet o ctx fun s => do
    let s ← markLine .emphasize b s
    if (ctx.heap.at sup).type ≠ .document then markLine .indicate (ctx.heap.at sup).toBase s else .ok s
  .ok ⟨.sectionHierarchyLayerSkip (b.line + 1), snippet, ← selectLine b⟩

/-- `unterminated_multiline_field` — parsing.py:121-133 -/
def unterminatedMultilineField (o : Options) (ctx : Ctx) (field : Nat) : Except PyExc ErrObj := do
  let f := ctx.heap.at field
  let snippet ← makeSnippet o ctx fun s => do
    let s ← reportElement ctx.heap (.elem field) s
    putAll s ((ctx.metas.filter fun m => m.base.line > f.line).map fun m => (m.base.line, .indicate))
  .ok ⟨.unterminatedMultilineField f.key (f.line + 1), snippet, ← selectLine f.toBase⟩

/-- The error raised while analysing. -/
def analysisError (o : Options) (ctx : Ctx) (b : Base) : FailKind → Except PyExc ErrObj
  | .invalidLine => invalidLine o ctx b
  | .missingListForListItem => lineError o ctx b (.missingListForListItem (b.line + 1))
  | .missingFieldsetForFieldsetEntry => lineError o ctx b (.missingFieldsetForFieldsetEntry (b.line + 1))
  | .missingElementForContinuation => lineError o ctx b (.missingElementForContinuation (b.line + 1))
  | .sectionHierarchyLayerSkip sup => sectionHierarchyLayerSkip o ctx b sup
  | .unterminatedMultilineField f => unterminatedMultilineField o ctx f

/-- `copy['template']`, which exists on copies. -/
def templateName (e : Elem) : Except PyExc Str :=
  match e.template with
  | some t => .ok t
  | none => .error .keyError

/-- `cyclic_dependency` from the point where the instruction to report is known — parsing.py:19-31. -/
def cyclicError (o : Options) (ctx : Ctx) (copy : Nat) (chain : List Nat) : Except PyExc ErrObj := do
  let e := ctx.heap.at copy
  let name ← templateName e
  let snippet ← makeSnippet o ctx fun s => do
    let s ← markLine .emphasize e.toBase s
    putAll s ((chain.filter (· ≠ copy)).map fun i => ((ctx.heap.at i).line, .indicate))
  .ok ⟨.cyclicDependency (e.line + 1) name, snippet, ← selectTemplate e.toBase⟩

/-- `two_or_more_templates_found` — parsing.py:113-118 -/
def twoOrMoreTemplates (o : Options) (ctx : Ctx) (copy first second : Nat) : Except PyExc ErrObj := do
  let e := ctx.heap.at copy
  let name ← templateName e
  let snippet ← makeSnippet o ctx fun s => do
    let s ← markLine .emphasize e.toBase s
    let s ← markLine .question (ctx.heap.at first).toBase s
    markLine .question (ctx.heap.at second).toBase s
  .ok ⟨.twoOrMoreTemplatesFound name, snippet, ← selectLine e.toBase⟩

/-- A copy whose template is not there — parsing.py:73-78, 94-99 -/
def notFound (o : Options) (ctx : Ctx) (copy : Nat) (text : Nat → Str → Msg) : Except PyExc ErrObj := do
  let e := ctx.heap.at copy
  let name ← templateName e
  lineError o ctx e.toBase (text (e.line + 1) name)

/-- The error raised while resolving; the context has the elements as they are at that time. -/
def resolutionError (o : Options) (ctx : Ctx) : RFail → Except PyExc ErrObj
  | .cyclicDependency copy chain => cyclicError o ctx copy chain
  | .missingListForListItem x => lineError o ctx x.toBase (.missingListForListItem (x.line + 1))
  | .missingFieldsetForFieldsetEntry x => lineError o ctx x.toBase (.missingFieldsetForFieldsetEntry (x.line + 1))
  | .nonSectionElementNotFound copy => notFound o ctx copy .nonSectionElementNotFound
  | .sectionNotFound copy => notFound o ctx copy .sectionNotFound
  | .twoOrMoreTemplatesFound copy first second => twoOrMoreTemplates o ctx copy first second

/-- What a call can raise. -/
inductive Raised where
  | parseError (e : ErrObj)
  | validationError (e : ErrObj)
  | py (e : PyExc)
deriving DecidableEq, Repr

/-- `raise Parsing.…` -/
def raiseParse : Except PyExc ErrObj → Raised
  | .ok e => .parseError e
  | .error e => .py e

/-- `Context(input, reporter=…, source=…)` with the errors as the caller sees them — context.py:9-18. -/
def parse (o : Options) (input : Str) : Except Raised Ctx :=
  match analyze input with
  | .error (.parse kind ctx b) => .error (raiseParse (analysisError o ctx b kind))
  | .error .keyError => .error (.py .keyError)
  | .error .outOfFuel => .error (.py .recursionError)
  | .ok ctx =>
    match load input with
    | .ok ctx => .ok ctx
    | .error (.resolution (.parse kind heap)) => .error (raiseParse (resolutionError o { ctx with heap := heap } kind))
    | .error (.resolution (.py e)) => .error (.py e)
    | .error (.analysis _) => .error (.py .recursionError)                              -- not reached

/-! ## `errors/validation.py` -/

/-- `comment_error` — validation.py:8-13 -/
def commentError (o : Options) (ctx : Ctx) (message : Str) (r : Ref) : Except PyExc ErrObj := do
  let b ← ctx.heap.base? r
  let snippet ← makeSnippet o ctx (reportComments b (ctx.heap.comments r))
  .ok ⟨.commentError message, snippet, ← selectComments b (ctx.heap.comments r)⟩

/-- A report about an element — validation.py:16-21, 81-86, 99-106 -/
def aboutElement (o : Options) (ctx : Ctx) (text : Msg) (r : Ref) : Except PyExc ErrObj := do
  let snippet ← makeSnippet o ctx (reportElement ctx.heap r)
  .ok ⟨text, snippet, ← selectElement ctx.heap r⟩

/-- `element_error` — validation.py:16-21 -/
def elementError (o : Options) (ctx : Ctx) (message : Str) (r : Ref) : Except PyExc ErrObj := aboutElement o ctx (.given message) r

/-- `key_error` — validation.py:24-29 -/
def keyError (o : Options) (ctx : Ctx) (message : Str) (r : Ref) : Except PyExc ErrObj := do
  let b ← ctx.heap.base? r
  let snippet ← makeSnippet o ctx (markLine .emphasize b)
  .ok ⟨.keyError message, snippet, ← selectKey b⟩

/-- `missing_comment` — validation.py:32-37 -/
def missingComment (o : Options) (ctx : Ctx) (r : Ref) : Except PyExc ErrObj := do
  let b ← ctx.heap.base? r
  let snippet ← makeSnippet o ctx (markLine .emphasize b)
  .ok ⟨.missingComment, snippet, ← selection b .line .beginning b .line .beginning⟩

/-- `missing_element` — validation.py:40-47 -/
def missingElement (o : Options) (ctx : Ctx) (key : Option Str) (parent : Nat) (message : MsgName) : Except PyExc ErrObj := do
  let e := ctx.heap.at parent
  let snippet ← makeSnippet o ctx (reportMissingElement ctx.heap parent)
  let sel ← if e.type = .document then .ok DOCUMENT_BEGIN else selection e.toBase .line .ending e.toBase .line .ending
  .ok ⟨.named message key, snippet, sel⟩

/-- `missing_value` — validation.py:50-78. A list item's `parent` is its list. -/
def missingValue (o : Options) (ctx : Ctx) (r : Ref) : Except PyExc ErrObj := do
  let b ← ctx.heap.base? r
  let (text, start) ← (match r with
    | .elem i =>
      let e := ctx.heap.at i
      if e.type = .field ∨ e.type = .empty ∨ e.type = .mlBegin then do                  -- :53-63
        let start ← if (b.range? .template).isSome then cursor b .template .ending
          else if (b.range? .elementOperator).isSome then cursor b .elementOperator .ending
          else cursor b .line .ending
        .ok (.missingFieldValue e.key, start)
      else .error .unboundLocalError
    | .entry .. =>                                                                    -- :64-66
      match ctx.heap.key? r with
      | some k => do .ok (.missingFieldsetEntryValue k, ← cursor b .entryOperator .ending)
      | none => .error .keyError
    | .item i _ => do .ok (.missingListItemValue (ctx.heap.at i).key, ← cursor b .itemOperator .ending) : Except PyExc (Msg × Cursor))   -- :67-69
  let snippet ← makeSnippet o ctx (reportElement ctx.heap r)
  let stop ← (match r with
    | .elem i =>
      match (ctx.heap.at i).type, (ctx.heap.at i).continuations with
      | .field, some cs =>
        match cs.getLast? with
        | some c => cursor c.toBase .line .ending
        | none => .error .indexError
      | _, _ => cursor b .line .ending
    | _ => cursor b .line .ending : Except PyExc Cursor)
  .ok ⟨text, snippet, start, stop⟩

/-- `unexpected_element` — validation.py:81-86; an empty message is like none. -/
def unexpectedElement (o : Options) (ctx : Ctx) (message : Option Str) (r : Ref) : Except PyExc ErrObj :=
  aboutElement o ctx (match message with | some (c :: cs) => .given (c :: cs) | _ => .unexpectedElement) r

/-- `unexpected_multiple_elements` — validation.py:89-96 -/
def unexpectedMultipleElements (o : Options) (ctx : Ctx) (key : Option Str) (rs : List Ref) (message : MsgName) : Except PyExc ErrObj := do
  let snippet ← makeSnippet o ctx (reportElements ctx.heap rs)
  match rs with
  | [] => .error .indexError
  | r :: _ => .ok ⟨.named message key, snippet, ← selectElement ctx.heap r⟩

/-- `unexpected_element_type` — validation.py:99-106 -/
def unexpectedElementType (o : Options) (ctx : Ctx) (key : Option Str) (r : Ref) (message : MsgName) : Except PyExc ErrObj :=
  aboutElement o ctx (.named message key) r

/-- `element['continuations']` -/
def Heap.continuations (h : Heap) : Ref → Option (List Cont)
  | .elem i => (h.at i).continuations
  | r => (h.sub? r).bind (·.continuations)

/-- validation.py:124-134 -/
def valueStart (b : Base) (item : Bool) : Except PyExc Cursor :=
  if (b.range? .value).isSome then cursor b .value .beginning
  else if (b.range? .elementOperator).isSome then cursor b .elementOperator .ending
  else if (b.range? .entryOperator).isSome then cursor b .entryOperator .ending
  else if item then cursor b .itemOperator .ending
  else cursor b .line .ending

/-- validation.py:136-141 -/
def valueStop (b : Base) : Option (List Cont) → Except PyExc Cursor
  | some cs =>
    match cs.getLast? with
    | some c => cursor c.toBase .line .ending
    | none => .error .indexError
  | none => if (b.range? .value).isSome then cursor b .value .ending else cursor b .line .ending

/-- `value_error` — validation.py:109-143 -/
def valueError (o : Options) (ctx : Ctx) (message : Str) (r : Ref) : Except PyExc ErrObj := do
  let b ← ctx.heap.base? r
  if (ctx.heap.mirror? r).isSome then do                                                -- :110-112
    let snippet ← makeSnippet o ctx (markLine .emphasize b)
    .ok ⟨.valueError message, snippet, ← selectKey b⟩
  else if ctx.heap.type r = .mlBegin then                                             -- :113-119
    match r with
    | .elem i =>
      match (ctx.heap.at i).lines with
      | some ls => do
        let snippet ← makeSnippet o ctx (reportMultilineValue (ctx.heap.at i))
        match ls.head?, ls.getLast? with
        | some x, some y => do .ok ⟨.valueError message, snippet, ← selection x .line .beginning y .line .ending⟩
        | _, _ => .error .indexError
      | none => do
        let snippet ← makeSnippet o ctx (reportElement ctx.heap r)
        .ok ⟨.valueError message, snippet, ← selection b .line .ending b .line .ending⟩
    | _ => .error .keyError
  else do                                                                             -- :120-141
    let snippet ← makeSnippet o ctx (reportElement ctx.heap r)
    let start ← valueStart b (ctx.heap.type r = .listItem)
    let stop ← valueStop b (ctx.heap.continuations r)
    .ok ⟨.valueError message, snippet, start, stop⟩

end Eno
