import Verif.Context

/-!
# `/repo/python/enolib/reporters/`

A reporter keeps two lists with one place per line of the document: the instruction on that line, and the tag it is shown with.
`self._snippet` is passed through the functions, `self._index` is only written when the reporter is created.
-/

namespace Eno

/-- reporter.py:3-7 -/
inductive Tag where
  | display | emphasize | indicate | omission | question
deriving DecidableEq, Repr

/-- What a reporter uses of an instruction. The first instruction of an error context has no `type` (analyzer.py:28-35, 42-52). -/
structure Row extends Base where
  type : Option Ty
deriving DecidableEq, Repr

/-- `self._snippet` -/
abbrev Snippet := List (Option Tag)

/-- `l[n] = x` -/
def put {α} (l : List (Option α)) (n : Nat) (x : α) : Except PyExc (List (Option α)) :=
  if n < l.length then .ok (l.set n (some x)) else .error .indexError

/-- A sequence of assignments. -/
def putAll {α} (l : List (Option α)) (ws : List (Nat × α)) : Except PyExc (List (Option α)) := ws.foldlM (fun l w => put l w.1 w.2) l

/-! ## The index -/

/-- reporter.py:19-22 -/
def commentRows (cs : Option (List Comment)) : List Row := (cs.getD []).map fun c => ⟨c.toBase, some .comment⟩

/-- reporter.py:34-36, 53-55, 64-66 -/
def contRows (cs : Option (List Cont)) : List Row := (cs.getD []).map fun c => ⟨c.toBase, some .continuation⟩

/-- reporter.py:48-55, 59-66 -/
def subRows (x : Sub) : List Row :=
  commentRows x.comments ++ ⟨x.toBase, some (if x.isEntry then .fieldsetEntry else .listItem)⟩ :: contRows x.continuations

/-- What is indexed for an element, in order, without what is inside a section — reporter.py:27-66. -/
def elemRows (e : Elem) : List Row :=
  commentRows e.comments ++ ⟨e.toBase, some e.type⟩ ::
    match e.type with
    | .field => contRows e.continuations
    | .mlBegin => (e.fin.toList.map fun b => ⟨b, some .mlEnd⟩) ++ (e.lines.getD []).map fun b => ⟨b, some .mlValue⟩
    | .list => (e.items.getD []).flatMap subRows
    | .fieldset => (e.entries.getD []).flatMap subRows
    | _ => []

/-- `traverse` — reporter.py:25-66; the first argument is fuel. -/
def traverse (h : Heap) : Nat → Nat → Except PyExc (List Row)
  | 0, _ => .error .recursionError
  | n + 1, s =>
    (h.at s).elements.foldlM (fun rows i =>
      if (h.at i).type = .section then
        match traverse h n i with
        | .error e => .error e
        | .ok inner => .ok (rows ++ elemRows (h.at i) ++ inner)
      else .ok (rows ++ elemRows (h.at i))) []

/-- `_build_index` — reporter.py:10-15, 17-71. The assignments do not depend on each other, so what is to be indexed is collected first. -/
def buildIndex (ctx : Ctx) : Except PyExc (List (Option Row)) :=
  match traverse ctx.heap (ctx.heap.length + 1) 0 with
  | .error e => .error e
  | .ok rows =>
    putAll (List.replicate ctx.lineCount none) ((rows ++ ctx.metas.map fun m => (⟨m.base, m.type⟩ : Row)).map fun r => (r.line, r))

/-! ## Tagging -/

/-- `while scan_line < to: self._snippet[scan_line] = tag; scan_line += 1` — reporter.py:80-82, 96-98, 132-134 -/
def tagLines (tag : Tag) (scan to : Nat) (s : Snippet) : Except PyExc Snippet := putAll s ((List.range' scan (to - scan)).map (·, tag))

/-- The loop of reporter.py:79-85: `scan_line` and the snippet afterwards. -/
def contsLoop (tag : Tag) : List Cont → Nat → Snippet → Except PyExc (Nat × Snippet)
  | [], scan, s => .ok (scan, s)
  | c :: cs, scan, s => do
    let s ← tagLines tag scan c.line s
    let s ← put s c.line tag
    contsLoop tag cs (max scan c.line + 1) s

/-- `_tag_continuations` — reporter.py:73-87 -/
def tagConts (tag : Tag) (line : Nat) (conts : Option (List Cont)) (s : Snippet) : Except PyExc (Nat × Snippet) :=
  match conts with
  | none => .ok (line + 1, s)
  | some cs => contsLoop tag cs (line + 1) s

/-- The loop of reporter.py:95-102. -/
def subsLoop (tag : Tag) : List Sub → Nat → Snippet → Except PyExc (Nat × Snippet)
  | [], scan, s => .ok (scan, s)
  | x :: xs, scan, s => do
    let s ← tagLines tag scan x.line s
    let s ← put s x.line tag
    let (scan, s) ← tagConts tag x.line x.continuations s
    subsLoop tag xs scan s

/-- `_tag_continuables` — reporter.py:89-104 -/
def tagSubs (tag : Tag) (line : Nat) (subs : Option (List Sub)) (s : Snippet) : Except PyExc (Nat × Snippet) :=
  match subs with
  | none => .ok (line + 1, s)
  | some xs => subsLoop tag xs (line + 1) s

/-- reporter.py:113-124 -/
def tagMultiline (tag : Tag) (e : Elem) (s : Snippet) : Except PyExc (Nat × Snippet) := do
  let s ← putAll s ((e.lines.getD []).map fun b => (b.line, tag))
  match e.fin with
  | some f => do
    let s ← put s f.line tag
    .ok (f.line + 1, s)
  | none =>
    match e.lines with
    | some ls =>
      match ls.getLast? with
      | some l => .ok (l.line + 1, s)
      | none => .error .indexError
    | none => .ok (e.line + 1, s)

/-- `_tag_element` without the case of a section — reporter.py:106-124. The result is `None` where no branch returns. -/
def tagLeaf (tag : Tag) (e : Elem) (s : Snippet) : Except PyExc (Option Nat × Snippet) :=
  let some' : Except PyExc (Nat × Snippet) → Except PyExc (Option Nat × Snippet) := fun x => x.map fun (n, s) => (some n, s)
  match e.type with
  | .field => some' (tagConts tag e.line e.continuations s)
  | .list => some' (tagSubs tag e.line e.items s)
  | .fieldset => if e.entries.isSome then some' (tagSubs tag e.line e.entries s) else .ok (none, s)
  | .mlBegin => some' (tagMultiline tag e s)
  | _ => .ok (none, s)

/-- `while scan_line < element['line']: …` where `scan_line` may be `None`, which cannot be compared — reporter.py:132-134. -/
def fillTo (scan : Option Nat) (line : Nat) (s : Snippet) : Except PyExc Snippet :=
  match scan with
  | none => .error .typeError
  | some n => tagLines .indicate n line s

/-- The loop of `_tag_section` — reporter.py:131-141; `inner` is `_tag_section` for the sections inside. -/
def sectionLoop (h : Heap) (tag : Tag) (recursive : Bool) (inner : Nat → Snippet → Except PyExc (Option Nat × Snippet)) :
    List Nat → Option Nat → Snippet → Except PyExc (Option Nat × Snippet)
  | [], scan, s => .ok (scan, s)
  | i :: is, scan, s => do
    let s ← fillTo scan (h.at i).line s
    if recursive = false ∧ (h.at i).type = .section then .ok (some (match scan with | some n => max n (h.at i).line | none => 0), s)
    else do
      let s ← put s (h.at i).line .indicate
      let (scan, s) ← if (h.at i).type = .section then inner i s else tagLeaf tag (h.at i) s
      sectionLoop h tag recursive inner is scan s

/-- `_tag_section` — reporter.py:128-143; the first argument is fuel. Sections inside are always tagged recursively. -/
def tagSection (h : Heap) (tag : Tag) : Nat → Bool → Nat → Snippet → Except PyExc (Option Nat × Snippet)
  | 0, _, _, _ => .error .recursionError
  | n + 1, recursive, sec, s => sectionLoop h tag recursive (tagSection h tag n true) (h.at sec).elements (some ((h.at sec).line + 1)) s

/-- `_tag_element` — reporter.py:106-126 -/
def tagElement (h : Heap) (tag : Tag) (i : Nat) (s : Snippet) : Except PyExc (Option Nat × Snippet) :=
  if (h.at i).type = .section then tagSection h tag (h.length + 1) true i s else tagLeaf tag (h.at i) s

/-! ## Reports

`r` refers to an element, an item or an entry. The document has neither `line` nor `ranges`. -/

/-- `instruction['line']`, `instruction['ranges']` of anything that can be referred to. -/
def Heap.base? (h : Heap) : Ref → Except PyExc Base
  | .elem i => if (h.at i).type = .document then .error .keyError else .ok (h.at i).toBase
  | r =>
    match h.sub? r with
    | some x => .ok x.toBase
    | none => .error .keyError

/-- `_tag_element` of anything that can be referred to. -/
def tagRef (h : Heap) (tag : Tag) (r : Ref) (s : Snippet) : Except PyExc Snippet :=
  match r with
  | .elem i => (tagElement h tag i s).map (·.2)
  | r =>
    match h.sub? r with
    | some x => (tagConts tag x.line x.continuations s).map (·.2)
    | none => .error .keyError

/-- `report_line` — reporter.py:173-176; `indicate_line` (145-147) and `question_line` (149-151) with their tags. -/
def markLine (tag : Tag) (b : Base) (s : Snippet) : Except PyExc Snippet := put s b.line tag

/-- `report_comments` — reporter.py:153-158 -/
def reportComments (b : Base) (comments : Option (List Comment)) (s : Snippet) : Except PyExc Snippet := do
  let s ← put s b.line .indicate
  match comments with
  | none => .error .keyError
  | some cs => putAll s (cs.map fun c => (c.line, .emphasize))

/-- `report_element` — reporter.py:160-164 -/
def reportElement (h : Heap) (r : Ref) (s : Snippet) : Except PyExc Snippet := do
  let b ← h.base? r
  let s ← put s b.line .emphasize
  tagRef h .indicate r s

/-- `report_elements` — reporter.py:166-171 -/
def reportElements (h : Heap) (rs : List Ref) (s : Snippet) : Except PyExc Snippet := rs.foldlM (fun s r => reportElement h r s) s

/-- `report_multiline_value` — reporter.py:178-182 -/
def reportMultilineValue (e : Elem) (s : Snippet) : Except PyExc Snippet :=
  match e.lines with
  | none => .error .keyError
  | some ls => putAll s (ls.map fun b => (b.line, .emphasize))

/-- `report_missing_element` — reporter.py:184-193 -/
def reportMissingElement (h : Heap) (parent : Nat) (s : Snippet) : Except PyExc Snippet := do
  let s ← if (h.at parent).type = .document then .ok s else put s (h.at parent).line .indicate
  if (h.at parent).type = .section then (tagSection h .question (h.length + 1) false parent s).map (·.2)
  else (tagElement h .question parent s).map (·.2)

/-! ## The window -/

/-- `self._snippet[n] is not None and self._snippet[n] != DISPLAY` -/
def tagged (s : Snippet) (n : Nat) : Bool :=
  match s.getD n none with
  | none => false
  | some .display => false
  | _ => true

/-- One round of the loop of reporter.py:202-212. (`line - 2 > 0` and `line - 1 > 0`, not `>=`.) -/
def windowStep (s : Snippet) (line : Nat) : Snippet :=
  if (s.getD line none).isSome then s
  else if (line + 2 < s.length ∧ tagged s (line + 2)) ∨ (line > 2 ∧ tagged s (line - 2)) ∨ (line + 1 < s.length ∧ tagged s (line + 1)) ∨
      (line > 1 ∧ tagged s (line - 1)) then s.set line (some .display)
  else if line + 3 < s.length ∧ tagged s (line + 3) then s.set line (some .omission)
  else s

/-- `snippet` without `_print` — reporter.py:195-217 -/
def window (s : Snippet) : Snippet :=
  if s.all (·.isNone) then s.map fun _ => some .question
  else
    let s := (List.range s.length).foldl windowStep s
    if s.getLast? = some none then s.set (s.length - 1) (some .omission) else s

/-! ## Printing -/

inductive Reporter where
  | text | html | terminal
deriving DecidableEq, Repr

/-- The options of `Context` (context.py:9) and the two messages that reporters print. -/
structure Options where
  reporter : Reporter := .text
  source : Option Str := none
  gutterHeader : Str := ['L', 'i', 'n', 'e']
  contentHeader : Str := ['C', 'o', 'n', 't', 'e', 'n', 't']
deriving DecidableEq, Repr

/-- `str(n)` -/
def decimal (n : Nat) : Str := Nat.toDigits 10 n

/-- `s.rjust(w)` -/
def rjust (w : Nat) (s : Str) : Str := List.replicate (w - s.length) ' ' ++ s

/-- `input[b:e]` for the line of an instruction. -/
def sourceText (input : Str) (b : Base) : Str := (input.take b.span.2).drop b.span.1

/-- text_reporter.py:4-9, terminal_reporter.py:17-22 -/
def indicator : Tag → Except PyExc Char
  | .display => .ok ' '
  | .emphasize => .ok '>'
  | .indicate => .ok '*'
  | .question => .ok '?'
  | .omission => .error .keyError

/-- The numbered lines that are shown, with their tags. -/
def shown (s : Snippet) : List (Nat × Tag) := ((List.range s.length).zip s).filterMap fun (n, t) => t.map (n, ·)

/-- `_print` with `'\n'.join(…)`. -/
def printLines (line : Nat → Tag → Except PyExc Str) (s : Snippet) : Except PyExc Str :=
  match allOk ((shown s).map fun (n, t) => line n t) with
  | .error e => .error e
  | .ok ls => .ok (joinLines ls)

namespace TextReporter

/-- `self._gutter_width` — text_reporter.py:15, 20 -/
def gutterWidth (o : Options) : Nat := (rjust 5 o.gutterHeader).length + 3

/-- text_reporter.py:15-21 -/
def header (o : Options) : Str :=
  (match o.source with
    | some src => ['-', '-', ' '] ++ src ++ [' ', '-', '-', '\n', '\n']
    | none => []) ++ [' ', ' '] ++ rjust 5 o.gutterHeader ++ [' ', '|', ' '] ++ o.contentHeader ++ ['\n']

/-- text_reporter.py:23-35 -/
def line (o : Options) (input : Str) (index : List (Option Row)) (n : Nat) (tag : Tag) : Except PyExc Str :=
  if tag = .omission then .ok (List.replicate (gutterWidth o - 5) ' ' ++ ['.', '.', '.'])
  else
    match indicator tag with
    | .error e => .error e
    | .ok c =>
      let content := match index.getD n none with
        | none => []
        | some r => sourceText input r.toBase
      .ok ([' ', c] ++ rjust (gutterWidth o - 3) (decimal (n + 1)) ++ [' ', '|', ' '] ++ content)

/-- text_reporter.py:37-40 -/
def print (o : Options) (input : Str) (index : List (Option Row)) (s : Snippet) : Except PyExc Str :=
  (printLines (line o input index) s).map (header o ++ ·)

end TextReporter

namespace HtmlReporter

/-- `html.escape` -/
def escapeChar : Char → Str
  | '&' => ['&', 'a', 'm', 'p', ';']
  | '<' => ['&', 'l', 't', ';']
  | '>' => ['&', 'g', 't', ';']
  | '"' => ['&', 'q', 'u', 'o', 't', ';']
  | '\'' => ['&', '#', 'x', '2', '7', ';']
  | c => [c]

def escape (s : Str) : Str := s.flatMap escapeChar

/-- html_reporter.py:30-36 -/
def markup (gutter content tagClass : Str) : Str :=
  chars!"<div class=\"eno-report-line " ++ tagClass ++ chars!"\"><div class=\"eno-report-gutter\">" ++ rjust 10 gutter ++
    chars!"</div><div class=\"eno-report-content\">" ++ escape content ++ chars!"</div></div>"

/-- html_reporter.py:19-26 -/
def tagClass : Tag → Str
  | .emphasize => chars!"eno-report-line-emphasized"
  | .indicate => chars!"eno-report-line-indicated"
  | .question => chars!"eno-report-line-questioned"
  | _ => []

/-- html_reporter.py:8-28 -/
def line (input : Str) (index : List (Option Row)) (n : Nat) (tag : Tag) : Except PyExc Str :=
  if tag = .omission then .ok (markup ['.', '.', '.'] ['.', '.', '.'] [])
  else
    let content := match index.getD n none with
      | none => []
      | some r => sourceText input r.toBase
    .ok (markup (decimal (n + 1)) content (tagClass tag))

/-- html_reporter.py:38-45. An empty source is like none. -/
def print (o : Options) (input : Str) (index : List (Option Row)) (s : Snippet) : Except PyExc Str :=
  (printLines (line input index) s).map fun snippet =>
    let pre := chars!"<pre class=\"eno-report\">" ++ markup o.gutterHeader o.contentHeader [] ++ snippet ++ chars!"</pre>"
    match o.source with
    | some (c :: cs) => chars!"<div><div>" ++ (c :: cs) ++ chars!"</div>" ++ pre ++ chars!"</div>"
    | _ => pre

end HtmlReporter

namespace TerminalReporter

/-- An escape sequence. -/
def esc (s : Str) : Str := Char.ofNat 27 :: '[' :: s

def RESET : Str := esc (chars!"0m")
def BOLD : Str := esc (chars!"1m")
def DIM : Str := esc (chars!"2m")
def BLACK : Str := esc (chars!"30m")
def BRIGHT_BLACK : Str := esc (chars!"90m")
def WHITE : Str := esc (chars!"37m")
def BRIGHT_WHITE : Str := esc (chars!"97m")
def BRIGHT_BLACK_BACKGROUND : Str := esc (chars!"40m")
def BRIGHT_RED_BACKGROUND : Str := esc (chars!"101m")
def WHITE_BACKGROUND : Str := esc (chars!"47m")

/-- terminal_reporter.py:24-29 -/
def gutterStyle : Tag → Except PyExc Str
  | .display => .ok BRIGHT_BLACK_BACKGROUND
  | .emphasize => .ok (BLACK ++ BRIGHT_RED_BACKGROUND)
  | .indicate => .ok (BLACK ++ WHITE_BACKGROUND)
  | .question => .ok (BLACK ++ WHITE_BACKGROUND)
  | .omission => .error .keyError

/-- terminal_reporter.py:31-46. The name is `deepCopy_operator` there, so the `deep_copy_operator` that the analyzer writes is missing, like the
ranges of comments. -/
def rangeStyle : RangeName → Except PyExc Str
  | .key | .template => .ok (BOLD ++ BRIGHT_WHITE)
  | .value => .ok (DIM ++ WHITE)
  | .deepCopyOperator | .commentOperator | .comment | .line => .error .keyError
  | _ => .ok WHITE

/-- `self._line_number_padding` — terminal_reporter.py:52-59: nothing is tagged yet, so the line count decides. -/
def padding (lineCount : Nat) : Nat := max 4 (decimal lineCount).length

/-- terminal_reporter.py:60-63. An empty source is like none. -/
def header (o : Options) (pad : Nat) : Str :=
  match o.source with
  | some (c :: cs) => BLACK ++ BRIGHT_RED_BACKGROUND ++ [' ', '>', ' '] ++ rjust pad [' '] ++ [' '] ++ RESET ++ [' '] ++ BOLD ++ (c :: cs) ++ RESET ++ ['\n']
  | _ => []

/-- Insert before the first range that begins earlier. -/
def insertRange (x : RangeName × (Nat × Nat)) : Ranges → Ranges
  | [] => [x]
  | y :: ys => if y.2.1 < x.2.1 then x :: y :: ys else y :: insertRange x ys

/-- `ranges.sort(key=…, reverse=True)`, which is stable — terminal_reporter.py:81 -/
def sortRanges (rs : Ranges) : Ranges := rs.foldl (fun acc x => insertRange x acc) []

/-- One round of terminal_reporter.py:83-87. -/
def paint (input : Str) (lineBegin : Nat) (content : Str) (x : RangeName × (Nat × Nat)) : Except PyExc Str :=
  match rangeStyle x.1 with
  | .error e => .error e
  | .ok style =>
    .ok (content.take (x.2.1 - lineBegin) ++ style ++ (input.take x.2.2).drop x.2.1 ++ RESET ++ content.drop (x.2.2 - lineBegin))

/-- terminal_reporter.py:71-87 -/
def content (input : Str) : Option Row → Except PyExc Str
  | none => .ok []
  | some r =>
    match r.type with
    | none => .error .keyError
    | some ty =>
      if ty = .comment ∨ ty = .unparsed then .ok (BRIGHT_BLACK ++ sourceText input r.toBase ++ RESET)
      else (sortRanges (r.ranges.filter fun x => x.1 ≠ .line)).foldlM (paint input r.span.1) (sourceText input r.toBase)

/-- terminal_reporter.py:65-89 -/
def line (pad : Nat) (input : Str) (index : List (Option Row)) (n : Nat) (tag : Tag) : Except PyExc Str :=
  if tag = .omission then .ok (DIM ++ BRIGHT_BLACK_BACKGROUND ++ rjust (pad + 2) ['.', '.', '.'] ++ [' ', ' '] ++ RESET)
  else do
    let content ← content input (index.getD n none)
    let style ← gutterStyle tag
    let c ← indicator tag
    .ok (style ++ [' ', c, ' '] ++ rjust pad (decimal (n + 1)) ++ [' '] ++ RESET ++ [' '] ++ content)

/-- terminal_reporter.py:91-94 -/
def print (o : Options) (lineCount : Nat) (input : Str) (index : List (Option Row)) (s : Snippet) : Except PyExc Str :=
  (printLines (line (padding lineCount) input index) s).map (header o (padding lineCount) ++ ·)

end TerminalReporter

/-- `context.reporter(context).report_…(…).snippet()` for a report given as a function on the snippet. -/
def makeSnippet (o : Options) (ctx : Ctx) (report : Snippet → Except PyExc Snippet) : Except PyExc Str :=
  match buildIndex ctx with
  | .error e => .error e
  | .ok index =>
    match report (List.replicate ctx.lineCount none) with
    | .error e => .error e
    | .ok s =>
      match o.reporter with
      | .text => TextReporter.print o ctx.input index (window s)
      | .html => HtmlReporter.print o ctx.input index (window s)
      | .terminal => TerminalReporter.print o ctx.lineCount ctx.input index (window s)

end Eno
