import Verif.Spec.Trace
import Verif.Data

/-!
# Specification: what the instructions of a document mean together

Everything here is computed from the list of events only (`Spec/Trace.lean`): which events belong together, which
comments belong to which event, and what is recorded about an event. No state machine.
-/

namespace Eno.Spec

/-- The part of speech of an event. -/
inductive Role where
  | blank | comment | element (hasValue : Bool) | copy | item | entry | continuation | heading (depth : Nat) | multiline
deriving DecidableEq, Repr

/-- The role of a one-line instruction. -/
def roleOf : Body → Role
  | .empty => .blank
  | .element _ _ v => .element v.isSome
  | .listItem .. => .item
  | .entry .. => .entry
  | .continuation .. => .continuation
  | .heading op _ _ => .heading (op.e - op.b)
  | .multiline .. => .multiline
  | .comment .. => .comment
  | .copy .. => .copy

/-- The role of an event. -/
def Event.role : Event → Role
  | .line _ _ t => roleOf t.body
  | .multi .. => .multiline

/-- Roles that begin a new element. -/
def Role.starts : Role → Bool
  | .element _ | .copy | .heading _ | .multiline => true
  | _ => false

/-- Roles that can have comments and continuations of their own: elements, items and entries. -/
def Role.owns : Role → Bool
  | .item | .entry => true
  | r => r.starts

/-- Neither blank nor a comment. -/
def Role.content : Role → Bool
  | .blank | .comment => false
  | _ => true

/-- Cut a list into groups: every element with `p` begins a new group, every other one joins the group before it
(dropped if there is none). -/
def splitBefore {α} (p : α → Bool) (l : List α) : List (List α) :=
  l.foldl (fun gs a => if p a then gs ++ [[a]] else gs.dropLast ++ (gs.getLast?.map (· ++ [a])).toList) []

/-- The events that make up each element, in order. -/
def blocks (es : List Event) : List (List Event) :=
  splitBefore (fun e => e.role.starts) (es.filter fun e => e.role.content)

/-- The parts of a block: the element itself, its items or entries, each with its continuations. -/
def parts (block : List Event) : List (List Event) := splitBefore (fun e => e.role.owns) block

/-- The type of the element a block makes. -/
def kindOf : List Event → Ty
  | [] => .document
  | e :: rest =>
    match e.role with
    | .heading _ => .section
    | .multiline => .mlBegin
    | .element true => .field
    | _ =>
      match rest.head?.map Event.role with
      | some .item => .list
      | some .entry => .fieldset
      | some .continuation => .field
      | _ => .empty

/-- The comments that stand directly before a position. -/
def commentRun (pre : List Event) : List Event := (pre.reverse.takeWhile fun e => e.role == .comment).reverse

/-- Every owner with the comments directly before it. -/
def owned (pre : List Event) : List Event → List (List Event × Event)
  | [] => []
  | e :: es => (if e.role.owns then [(commentRun pre, e)] else []) ++ owned (pre ++ [e]) es

/-- The comments that are followed by a blank line or a continuation. -/
def loose (pre : List Event) : List Event → List Event
  | [] => []
  | e :: es => (if e.role = .blank ∨ e.role = .continuation then commentRun pre else []) ++ loose (pre ++ [e]) es

/-- Depth of the section a position is in. -/
def depthOf (es : List Event) : Nat :=
  match (es.filterMap fun e => match e.role with | .heading d => some d | _ => none).getLast? with
  | some d => d
  | none => 0

/-- Whether an event may follow: items need a list or an empty element (possibly a copy), entries a fieldset or an empty element,
continuations an element that is not a section, not a multiline field and not a bare copy, and a heading must not skip a level. -/
def Legal (es : List Event) (e : Event) : Prop :=
  match e.role with
  | .item => ∃ b, (blocks es).getLast? = some b ∧ kindOf b ∈ [Ty.list, .empty]
  | .entry => ∃ b, (blocks es).getLast? = some b ∧ kindOf b ∈ [Ty.fieldset, .empty]
  | .continuation => ∃ b, (blocks es).getLast? = some b ∧ kindOf b ∈ [Ty.field, .empty, .list, .fieldset] ∧ b.map Event.role ≠ [.copy]
  | .heading d => d ≤ depthOf es + 1
  | _ => True

/-- Every event is legal where it stands. -/
def AllLegal (es : List Event) : Prop := ∀ pre ev post, es = pre ++ ev :: post → Legal pre ev

/-- Position of the last section among the elements (the document is 0, the elements count from 1). -/
def lastSectionOf (es : List Event) : Nat :=
  (((List.range (blocks es).length).filter fun i => kindOf ((blocks es).getD i []) = .section).getLast?.map (· + 1)).getD 0

/-- What an illegal event is reported as. -/
def rejection (es : List Event) (e : Event) : Option FailKind :=
  match e.role with
  | .item => some .missingListForListItem
  | .entry => some .missingFieldsetForFieldsetEntry
  | .continuation => some .missingElementForContinuation
  | .heading _ => some (.sectionHierarchyLayerSkip (lastSectionOf es))
  | _ => none

/-! ## What is recorded -/

/-- What is recorded about one line: number, ranges, key, value and template. -/
structure Piece extends Base where
  key : Option Str := none
  value : Option Str := none
  template : Option Str := none
deriving DecidableEq, Repr

/-- The range of a group. -/
def at_ (n : RangeName) (c : Cap) : Ranges := [(n, (c.b, c.e))]

/-- The range of an optional group. -/
def at? (n : RangeName) : Option Cap → Ranges
  | none => []
  | some c => at_ n c

/-- The ranges of a key. -/
def keyRanges : KeyTok → Ranges × Ranges
  | .plain k => ([], at_ .key k)
  | .escaped b k e => (at_ .escapeBeginOperator b ++ at_ .escapeEndOperator e, at_ .key k)

/-- The ranges of an instruction, apart from the whole line. -/
def rangesOf : Body → Ranges
  | .empty => []
  | .element k op v => at_ .elementOperator op ++ (keyRanges k).1 ++ (keyRanges k).2 ++ at? .value v
  | .listItem op v => at_ .itemOperator op ++ at? .value v
  | .entry k op v => (keyRanges k).1 ++ at_ .entryOperator op ++ (keyRanges k).2 ++ at? .value v
  | .continuation true op v => at_ .spacedLineContinuationOperator op ++ at? .value v
  | .continuation false op v => at_ .directLineContinuationOperator op ++ at? .value v
  | .heading op k none => at_ .sectionOperator op ++ (keyRanges k).1 ++ (keyRanges k).2
  | .heading op k (some (c, t)) => at_ .sectionOperator op ++ (keyRanges k).1 ++ (keyRanges k).2 ++ at_ .template t ++
      at_ (if c.e - c.b = 2 then .deepCopyOperator else .copyOperator) c
  | .multiline op k => at_ .multilineFieldOperator op ++ at_ .key k
  | .comment op v => at_ .commentOperator op ++ at? .comment v
  | .copy k op t => at_ .copyOperator op ++ at_ .template t ++ (keyRanges k).1 ++ (keyRanges k).2

/-- The key of an instruction. -/
def keyText : Body → Option Str
  | .element k .. | .entry k .. | .heading _ k _ | .copy k .. => some k.text
  | .multiline _ k => some k.text
  | _ => none

/-- The value of an instruction. -/
def valueText : Body → Option Str
  | .element _ _ v | .listItem _ v | .entry _ _ v | .continuation _ _ v | .comment _ v => v.map (·.text)
  | _ => none

/-- The template of an instruction. -/
def templateText : Body → Option Str
  | .heading _ _ c => c.map (·.2.text)
  | .copy _ _ t => some t.text
  | _ => none

/-- What is recorded about a one-line instruction. -/
def pieceOf (n b : Nat) (t : Tok) : Piece :=
  { line := n, ranges := (.line, (b, t.fin)) :: rangesOf t.body
    key := keyText t.body, value := valueText t.body, template := templateText t.body }

/-- The first (for all but multiline fields: the only) line of an event. -/
def Event.piece : Event → Piece
  | .line n b t => pieceOf n b t
  | .multi n b fin op key _ _ => pieceOf n b ⟨fin, .multiline op key⟩

/-- What is recorded about an event, line by line. -/
def Event.pieces : Event → List Piece
  | .line n b t => if t.body = .empty then [] else [pieceOf n b t]
  | .multi n b fin op key body T =>
    pieceOf n b ⟨fin, .multiline op key⟩ :: body.map (fun p => { line := p.1, ranges := [(.line, p.2), (.value, p.2)] }) ++
      [{ line := n + body.length + 1
         ranges := [(.key, (T.key, T.key + key.text.length)), (.line, (T.start + 1, T.fin)),
           (.multilineFieldOperator, (T.op, T.op + op.text.length))] }]

/-- A comment event as it is recorded. -/
def Event.comments : Event → List Comment
  | .line n b ⟨fin, .comment op v⟩ =>
    [{ line := n, ranges := (.line, (b, fin)) :: rangesOf (.comment op v), comment := v.map (·.text) }]
  | _ => []

end Eno.Spec

namespace Eno

open Spec (Piece)

/-! ## The same parts, read off the result -/

/-- The record of a continuation. -/
def Cont.piece (c : Cont) : Piece := { c.toBase with value := c.value }

/-- The record of an item or entry. -/
def Sub.piece (x : Sub) : Piece := { x.toBase with key := x.key, value := x.value }

/-- An item or entry with its continuations. -/
def Sub.part (x : Sub) : List Piece := x.piece :: (x.continuations.getD []).map Cont.piece

/-- The record of the element itself. -/
def Elem.piece (e : Elem) : Piece := { e.toBase with key := some e.key, value := e.value, template := e.template }

/-- The record of a line of a multiline field. -/
def Base.piece (b : Base) : Piece := { toBase := b }

/-- The element itself with its continuations and, for a multiline field, its lines and end. -/
def Elem.head (e : Elem) : List Piece :=
  e.piece :: (e.continuations.getD []).map Cont.piece ++
    (e.lines.getD []).map Base.piece ++ e.fin.toList.map Base.piece

/-- The parts of an element. -/
def Elem.parts (e : Elem) : List (List Piece) :=
  e.head :: (e.items.getD []).map Sub.part ++ (e.entries.getD []).map Sub.part

/-- The owners of comments within an element, with their comments. -/
def Elem.owners (e : Elem) : List (List Comment × Piece) :=
  (e.comments.getD [], e.piece) :: (e.items.getD []).map (fun x => (x.comments.getD [], x.piece)) ++
    (e.entries.getD []).map (fun x => (x.comments.getD [], x.piece))

end Eno
