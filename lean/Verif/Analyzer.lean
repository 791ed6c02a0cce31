import Verif.Data

/-!
# `/repo/python/enolib/analyzer.py`

`Analyzer.analyze` branch by branch. `self._index` and `self._line` are arguments of the loop, the local variables and
the parts of the context that are mutated form the state `AS`.
-/

namespace Eno

/-- A reference to the last continuable element (`last_continuable_element`): a section-level element, or the last item or
entry of one. (When it is an item/entry it is always the last one of its list/fieldset: a later item or entry
replaces the reference.) -/
inductive ContRef where
  | elem (i : Nat)
  | sub (i : Nat)
deriving DecidableEq, Repr

/-- Local variables of `analyze` (analyzer.py:61-64), `self._depth` (analyzer.py:10) and the context fields that are filled. -/
structure AS where
  heap : Heap
  metas : List Meta
  depth : Nat
  comments : Option (List Comment)
  lastCont : Option ContRef
  lastNonSection : Option Nat
  lastSection : Nat
  copySections : Copies
  copyNonSections : Copies
deriving DecidableEq, Repr

/-- analyzer.py:8-19, 61-64 -/
def AS.init : AS :=
  { heap := [Elem.document], metas := [], depth := 0, comments := none, lastCont := none, lastNonSection := none,
    lastSection := 0, copySections := [], copyNonSections := [] }

/-- What a single line can be rejected for. -/
inductive LineFail where
  | missingList
  | missingFieldset
  | missingElement
  | layerSkip (superSection : Nat)
  | keyError
  | outOfFuel
deriving DecidableEq, Repr

/-- `match.span(n)` -/
def Cap.span (c : Cap) : Nat × Nat := (c.b, c.e)

/-- `instruction['ranges']['value'] = …` when there is a value (analyzer.py:113, 130-132, …). -/
def valueRange (n : RangeName) : Option Cap → Ranges
  | none => []
  | some c => [(n, c.span)]

/-- The escape ranges of an escaped key, in the order in which analyzer.py writes them. -/
def escapeRanges : KeyTok → Ranges
  | .plain _ => []
  | .escaped b _ e => [(.escapeBeginOperator, b.span), (.escapeEndOperator, e.span)]

/-- `match.span` of the key group. -/
def KeyTok.span : KeyTok → Nat × Nat
  | .plain k => k.span
  | .escaped _ k _ => k.span

/-- `last_section['elements'].append(instruction)` and the creation of the dictionary (analyzer.py:115-116 etc.): the new element
gets the next heap position. -/
def AS.append (s : AS) (parent : Nat) (e : Elem) : Heap :=
  (s.heap.modify parent fun p => { p with elements := p.elements ++ [s.heap.length] }) ++ [e]

/-- `self._context.meta.extend(comments)` (analyzer.py:84-86, 215-217, 240-242, 468-469). -/
def flushed (metas : List Meta) : Option (List Comment) → List Meta
  | none => metas
  | some cs => metas ++ cs.map .comment

/-- `if template in d: d[template]['targets'].append(i) else: d[template] = {'targets': [i]}` (analyzer.py:309-312, 450-453). -/
def addTarget (d : Copies) (template : Str) (i : Nat) : Copies :=
  match d with
  | [] => [(template, { targets := [i] })]
  | (k, c) :: t =>
    if k = template then (k, { c with targets := c.targets ++ [i] }) :: t else (k, c) :: addTarget t template i

/-- analyzer.py:88-118 — `key:` / `key: value` -/
def stepElement (s : AS) (line index fin : Nat) (k : KeyTok) (op : Cap) (value : Option Cap) : AS :=
  let id := s.heap.length
  let e : Elem :=
    { line := line
      ranges := [(.line, (index, fin)), (.elementOperator, op.span)] ++ escapeRanges k ++ [(.key, k.span)] ++
        valueRange .value value
      comments := s.comments
      key := k.text
      type := if value.isSome then .field else .empty
      value := value.map (·.text)
      parent := some s.lastSection }
  { s with heap := s.append s.lastSection e, comments := none, lastCont := some (.elem id), lastNonSection := some id }

/-- analyzer.py:120-148 — `- value`. The type of the last non-section element decides. -/
def stepListItem (s : AS) (line index fin : Nat) (op : Cap) (value : Option Cap) : Except LineFail AS :=
  let item : Sub :=
    { line := line, ranges := [(.line, (index, fin)), (.itemOperator, op.span)] ++ valueRange .value value, isEntry := false
      key := none, value := value.map (·.text), comments := s.comments, continuations := none }
  match s.lastNonSection with
  | none => .error .missingList                                                       -- :135-137
  | some n =>
    if (s.heap.at n).type = .list then                                                -- :138-139
      match (s.heap.at n).items with
      | none => .error .keyError
      | some items =>
        .ok { s with heap := s.heap.modify n fun e => { e with items := some (items ++ [item]) }
                     comments := none, lastCont := some (.sub n) }
    else if (s.heap.at n).type = .empty then                                          -- :140-142
      .ok { s with heap := s.heap.modify n fun e => { e with items := some [item], type := .list }
                   comments := none, lastCont := some (.sub n) }
    else .error .missingList                                                          -- :143-145

/-- analyzer.py:150-190 — `key = value` -/
def stepEntry (s : AS) (line index fin : Nat) (k : KeyTok) (op : Cap) (value : Option Cap) : Except LineFail AS :=
  let entry : Sub :=
    { line := line
      ranges := [(.line, (index, fin))] ++ escapeRanges k ++ [(.entryOperator, op.span), (.key, k.span)] ++ valueRange .value value
      isEntry := true, key := some k.text, value := value.map (·.text), comments := s.comments, continuations := none }
  match s.lastNonSection with
  | none => .error .missingFieldset                                                   -- :177-179
  | some n =>
    if (s.heap.at n).type = .fieldset then                                            -- :180-181
      match (s.heap.at n).entries with
      | none => .error .keyError
      | some entries =>
        .ok { s with heap := s.heap.modify n fun e => { e with entries := some (entries ++ [entry]) }
                     comments := none, lastCont := some (.sub n) }
    else if (s.heap.at n).type = .empty then                                          -- :182-184
      .ok { s with heap := s.heap.modify n fun e => { e with entries := some [entry], type := .fieldset }
                   comments := none, lastCont := some (.sub n) }
    else .error .missingFieldset                                                      -- :185-187

/-- Replace the last element of a list. -/
def modifyLast {α} (f : α → α) : List α → List α
  | [] => []
  | [a] => [f a]
  | a :: b :: t => a :: modifyLast f (b :: t)

/-- Append to the `continuations` of an item or entry (analyzer.py:207-213; its type is never `EMPTY_ELEMENT`). -/
def Sub.addCont (c : Cont) (x : Sub) : Sub := { x with continuations := some (x.continuations.getD [] ++ [c]) }

/-- Append to the `continuations` of a section-level element (analyzer.py:207-213, 232-238). -/
def Elem.addCont (c : Cont) (e : Elem) : Elem :=
  match e.continuations with
  | some cs => { e with continuations := some (cs ++ [c]) }
  | none => { e with type := if e.type = .empty then .field else e.type, continuations := some [c] }

/-- Append to the `continuations` of the last item or entry. -/
def Elem.addContLast (c : Cont) (e : Elem) : Elem :=
  { e with items := e.items.map (modifyLast (Sub.addCont c)), entries := e.entries.map (modifyLast (Sub.addCont c)) }

/-- analyzer.py:192-218 (`\ value`, `spaced`) and analyzer.py:220-245 (`| value`) -/
def stepContinuation (s : AS) (line index fin : Nat) (spaced : Bool) (op : Cap) (value : Option Cap) : Except LineFail AS :=
  let c : Cont :=
    { line := line
      ranges := [(.line, (index, fin)),
        (if spaced then .spacedLineContinuationOperator else .directLineContinuationOperator, op.span)] ++ valueRange .value value
      spaced := spaced, value := value.map (·.text) }
  match s.lastCont with
  | none => .error .missingElement                                                    -- :194-196, 222-224
  | some (.elem i) =>
    .ok { s with heap := s.heap.modify i (Elem.addCont c), metas := flushed s.metas s.comments, comments := none }
  | some (.sub i) =>
    .ok { s with heap := s.heap.modify i (Elem.addContLast c), metas := flushed s.metas s.comments, comments := none }

/-- analyzer.py:265-267 — `while new_depth < self._depth: last_section = last_section['parent']; self._depth -= 1`; the argument is
the number of iterations. `last_section['parent']` fails on the document. -/
def ancestor (h : Heap) : Nat → Nat → Option Nat
  | 0, i => some i
  | n + 1, i => (h.at i).parent.bind (ancestor h n)

/-- analyzer.py:293-296 — every section from the parent up to the document is marked; `none` is out of fuel or a missing `parent`. -/
def markDeep : Nat → Heap → Nat → Option Heap
  | 0, _, _ => none
  | n + 1, h, i =>
    if (h.at i).type = .document then some h
    else
      match (h.at i).parent with
      | none => none
      | some p => markDeep n (h.modify i fun e => { e with deepResolve := true }) p

/-- Where a heading with `newDepth` hash signs goes: its parent (analyzer.py:259-272). -/
def headingParent (s : AS) (newDepth : Nat) : Except LineFail Nat :=
  if newDepth = s.depth + 1 then .ok s.lastSection
  else if newDepth = s.depth then
    match (s.heap.at s.lastSection).parent with
    | some p => .ok p
    | none => .error .keyError
  else if newDepth < s.depth then
    match ancestor s.heap (s.depth - newDepth) s.lastSection with
    | none => .error .keyError
    | some l =>
      match (s.heap.at l).parent with
      | some p => .ok p
      | none => .error .keyError
  else .error (.layerSkip s.lastSection)

/-- analyzer.py:247-317 — `# key`, `# key < template`, `# key << template` -/
def stepHeading (s : AS) (line index fin : Nat) (op : Cap) (k : KeyTok) (copy : Option (Cap × Cap)) : Except LineFail AS :=
  let newDepth := op.e - op.b
  match headingParent s newDepth with
  | .error e => .error e
  | .ok parent =>
    let id := s.heap.length
    let deep := match copy with
      | some (c, _) => decide (c.e - c.b = 2)
      | none => false
    let copyRanges : Ranges := match copy with
      | none => []
      | some (c, t) => [(.template, t.span), (if c.e - c.b = 2 then .deepCopyOperator else .copyOperator, c.span)]
    let e : Elem :=
      { line := line
        ranges := [(.line, (index, fin)), (.sectionOperator, op.span)] ++ escapeRanges k ++ [(.key, k.span)] ++ copyRanges
        comments := s.comments
        key := k.text
        type := .section
        parent := some parent
        template := copy.map (·.2.text)
        deepCopy := deep
        copy := copy.map (·.2.text) }
    let s' : AS := { s with heap := s.append parent e, comments := none, depth := newDepth, lastSection := id
                            lastCont := none, lastNonSection := none }
    match copy with
    | none => .ok s'
    | some (_, t) =>
      match markDeep (s'.heap.length + 1) s'.heap parent with
      | none => .error .outOfFuel
      | some h => .ok { s' with heap := h, copySections := addTarget s.copySections t.text id }

/-- analyzer.py:419-455 — `key < template` -/
def stepCopy (s : AS) (line index fin : Nat) (k : KeyTok) (op template : Cap) : AS :=
  let id := s.heap.length
  let e : Elem :=
    { line := line
      ranges := [(.line, (index, fin)), (.copyOperator, op.span), (.template, template.span)] ++ escapeRanges k ++ [(.key, k.span)]
      comments := s.comments
      key := k.text
      type := .empty
      template := some template.text
      copy := some template.text
      parent := some s.lastSection }
  { s with heap := s.append s.lastSection e, comments := none, lastCont := none, lastNonSection := some id
           copyNonSections := addTarget s.copyNonSections template.text id }

/-- analyzer.py:403-417 — `> comment` -/
def stepComment (s : AS) (line index fin : Nat) (op : Cap) (comment : Option Cap) : AS :=
  let c : Comment :=
    { line := line, ranges := [(.line, (index, fin)), (.commentOperator, op.span)] ++ valueRange .comment comment
      comment := comment.map (·.text) }
  { s with comments := some (s.comments.getD [] ++ [c]) }

/-- analyzer.py:319-344 — opening a multiline field: the element is appended before the terminator is looked for. -/
def openMultiline (s : AS) (line index fin : Nat) (op key : Cap) : AS :=
  let id := s.heap.length
  let e : Elem :=
    { line := line, ranges := [(.line, (index, fin)), (.multilineFieldOperator, op.span), (.key, key.span)]
      comments := s.comments, key := key.text, parent := some s.lastSection, type := .mlBegin }
  { s with heap := s.append s.lastSection e, comments := none, lastCont := none, lastNonSection := some id }

/-- analyzer.py:352-399 — the lines (absent if there are none) and the end of the multiline field opened last. -/
def closeMultiline (s : AS) (lines : Option (List Base)) (fin : Base) : AS :=
  { s with heap := s.heap.modify (s.heap.length - 1) (fun e => { e with lines := lines, fin := some fin }), lastNonSection := none }

/-- The branches of analyzer.py:82-455 for one-line instructions. (Multiline fields are handled in `loop`.) -/
def step (s : AS) (line index : Nat) (t : Tok) : Except LineFail AS :=
  match t.body with
  | .empty => .ok { s with metas := flushed s.metas s.comments, comments := none }   -- :82-86
  | .element k op v => .ok (stepElement s line index t.fin k op v)
  | .listItem op v => stepListItem s line index t.fin op v
  | .entry k op v => stepEntry s line index t.fin k op v
  | .continuation sp op v => stepContinuation s line index t.fin sp op v
  | .heading op k c => stepHeading s line index t.fin op k c
  | .multiline op k => .ok (openMultiline s line index t.fin op k)
  | .comment op c => .ok (stepComment s line index t.fin op c)
  | .copy k op tm => .ok (stepCopy s line index t.fin k op tm)

/-- `input.find('\n', i, j)` -/
def findNl (input : Str) (i j : Nat) : Option Nat :=
  (((input.take j).drop i).findIdx? (· == '\n')).map (i + ·)

/-- The common loop of analyzer.py:24-53 (`stop = len(input)`) and analyzer.py:355-383 (`stop` is the begin of the terminator
match): cut the text from `index` to `stop` at line feeds. The last piece always ends at `stop`. `none` is out of fuel. -/
def pieces (input : Str) (stop : Nat) : Nat → Nat → Nat → Option (List (Nat × Nat × Nat))
  | 0, _, _ => none
  | fuel + 1, index, line =>
    match findNl input index stop with
    | none => some [(line, index, stop)]
    | some e => (pieces input stop fuel (e + 1) (line + 1)).map ((line, index, e) :: ·)

/-- `_tokenize_error_context` — analyzer.py:21-53: the remaining lines are appended to `meta`, the line count is set and the first
of them is the instruction reported. -/
def tokenizeErrorContext (input : Str) (s : AS) (index line : Nat) : Option (Ctx × Base) :=
  match pieces input input.length (input.length + 2) index line with
  | none => none
  | some [] => none
  | some (first :: rest) =>
    let base := fun (p : Nat × Nat × Nat) => (⟨p.1, [(.line, p.2)]⟩ : Base)
    some ({ input := input, heap := s.heap
            metas := s.metas ++ .raw (base first) none :: rest.map fun p => .raw (base p) (some .unparsed)
            lineCount := line + rest.length + 1
            copySections := s.copySections, copyNonSections := s.copyNonSections }, base first)

/-- Raise a `ParseError` about the line at `index` (the pairs of `_tokenize_error_context` and `raise Parsing.…`). -/
def failAt (input : Str) (s : AS) (index line : Nat) (kind : FailKind) : AExc :=
  match tokenizeErrorContext input s index line with
  | none => .outOfFuel
  | some (ctx, b) => .parse kind ctx b

/-- The exception for a rejected line. -/
def lineFail (input : Str) (s : AS) (index line : Nat) : LineFail → AExc
  | .missingList => failAt input s index line .missingListForListItem
  | .missingFieldset => failAt input s index line .missingFieldsetForFieldsetEntry
  | .missingElement => failAt input s index line .missingElementForContinuation
  | .layerSkip sup => failAt input s index line (.sectionHierarchyLayerSkip sup)
  | .keyError => .keyError
  | .outOfFuel => .outOfFuel

/-- analyzer.py:336-401 — the part of the multiline branch after the opener: state, next index, next line. -/
def runMultiline (input : Str) (s : AS) (line : Nat) (fin : Nat) (op key : Str) : Except AExc (AS × Nat × Nat) :=
  match Re.search (Grammar.terminator op key) fin (input.drop fin) with
  | none =>                                                                           -- :346-348
    match tokenizeErrorContext input s (fin + 1) (line + 1) with
    | none => .error .outOfFuel
    | some (ctx, _) =>
      .error (.parse (.unterminatedMultilineField (s.heap.length - 1)) ctx (s.heap.at (s.heap.length - 1)).toBase)
  | some (start, st) =>
    match st.caps 1, st.caps 2 with
    | some c1, some c2 =>
      let endOf := fun (l : Nat) =>
        (⟨l, [(.key, c2.span), (.line, (start + 1, st.pos)), (.multilineFieldOperator, c1.span)]⟩ : Base)
      if start = fin then                                                             -- :352 (index - 1 = fin)
        .ok (closeMultiline s none (endOf (line + 1)), st.pos + 1, line + 2)
      else
        match pieces input start (input.length + 1) (fin + 1) (line + 1) with
        | none => .error .outOfFuel
        | some ps =>
          let lines := ps.map fun p => (⟨p.1, [(.line, p.2), (.value, p.2)]⟩ : Base)
          .ok (closeMultiline s (some lines) (endOf (line + 1 + ps.length)), st.pos + 1, line + 1 + ps.length + 1)
    | _, _ => .error .outOfFuel

/-- The main loop — analyzer.py:66-457; ends with the final line number and state. -/
def loop (input : Str) : Nat → Nat → Nat → AS → Except AExc (Nat × AS)
  | 0, _, _, _ => .error .outOfFuel
  | fuel + 1, index, line, s =>
    if index < input.length then
      match tokAt index (input.drop index) with
      | none => .error (failAt input s index line .invalidLine)                       -- :69-71
      | some t =>
        match step s line index t with
        | .error e => .error (lineFail input s index line e)
        | .ok s' =>
          match t.body with
          | .multiline op key =>
            match runMultiline input s' line t.fin op.text key.text with
            | .error e => .error e
            | .ok (s'', index', line') => loop input fuel index' line' s''
          | _ => loop input fuel (t.fin + 1) (line + 1) s'
    else .ok (line, s)

/-- analyzer.py:56-59, 463-469 and the collection of results; `input` empty returns early with one line. -/
def analyze (input : Str) : Except AExc Ctx :=
  if input.length = 0 then .ok { input := input, heap := AS.init.heap, metas := [], lineCount := 1 }
  else
    match loop input (input.length + 1) 0 0 AS.init with
    | .error e => .error e
    | .ok (line, s) =>
      .ok { input := input, heap := s.heap, metas := flushed s.metas s.comments
            lineCount := if input.getLast? = some '\n' then line + 1 else line
            copySections := s.copySections, copyNonSections := s.copyNonSections }

end Eno
