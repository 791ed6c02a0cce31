import Verif.Calls
import Verif.Spec.Complaint
import Verif.Spec.Position
import Verif.Spec.Lines

/-!
# Specification: programs that do not look at snippets

A program calls methods on objects, one after the other, and goes on depending on what it gets: results, exceptions. It can pass functions, which are programs themselves. It does not see
all of the errors that it gets: in any case not their snippets (and no message in a particular language). What it sees of an error `e` is `look e`, for one of two functions
`look`: `ErrObj.blank` leaves out the snippet, `ErrObj.spoken` leaves out the selection, too. The program can raise errors that it got again, and return them.
-/

namespace Eno.El

/-- An error without its snippet. -/
def _root_.Eno.ErrObj.blank (e : ErrObj) : ErrObj := { e with snippet := [] }

/-- An error without its snippet and its selection: only the message. -/
def _root_.Eno.ErrObj.spoken (e : ErrObj) : ErrObj := { text := e.text, snippet := [], selection := ⟨⟨0, 0, 0⟩, ⟨0, 0, 0⟩⟩ }

mutual
/-- What is seen of a result. -/
def Val.seen (look : ErrObj → ErrObj) : Val → Val
  | .error e => .error (look e)
  | .list xs => .list (Val.seenIn look xs)
  | v => v
/-- What is seen of results. -/
def Val.seenIn (look : ErrObj → ErrObj) : List Val → List Val
  | [] => []
  | v :: vs => v.seen look :: Val.seenIn look vs
end

mutual
/-- The errors in a result. -/
def Val.errors : Val → List ErrObj
  | .error e => [e]
  | .list xs => Val.errorsIn xs
  | _ => []
/-- The errors in results. -/
def Val.errorsIn : List Val → List ErrObj
  | [] => []
  | v :: vs => v.errors ++ Val.errorsIn vs
end

/-- What is seen of an exception. -/
def Exc.seen (look : ErrObj → ErrObj) : Exc → Exc
  | .validation e => .validation (look e)
  | x => x

/-- The error in an exception. -/
def Exc.errors : Exc → List ErrObj
  | .validation e => [e]
  | _ => []

/-- What is seen of what comes of a call. -/
def seenResult (look : ErrObj → ErrObj) : Except Exc Val → Except Exc Val
  | .ok v => .ok (v.seen look)
  | .error x => .error (x.seen look)

/-- What comes of a call, without snippets. -/
abbrev blankResult : Except Exc Val → Except Exc Val := seenResult ErrObj.blank

/-- What comes of a call, without snippets and selections. -/
abbrev spokenResult : Except Exc Val → Except Exc Val := seenResult ErrObj.spoken

/-- The errors in what comes of a call. -/
def errorsOf : Except Exc Val → List ErrObj
  | .ok v => v.errors
  | .error x => x.errors

mutual
/-- Programs. `give` and `again` are about errors that the program got before, by their number; `missing` is a call of a method of a missing element. -/
inductive Program where
  | ret (v : Val)
  | give (n : Nat)
  | raise (e : PyExc)
  | reject (message : Str)
  | again (n : Nat)
  | call (o : Nat) (m : Act) (next : Except Exc Val → Program)
  | missing (x : Missing) (m : Method) (next : Except Exc Val → Program)

/-- Calls: methods with texts as messages and without functions, and methods with functions. -/
inductive Act where
  | raw | repr | touch | to (k : Kind) | yields (k : Kind) | toEntry | toItem | yieldsEntry | yieldsItem | items | length | entries (key : Option Str)
  | entry (key : Option Str) (required : Option Bool) | allEntriesRequired (required : Bool) | one (want : Want) (key : Option Str) (required : Option Bool)
  | many (want : Want) (key : Option Str) | allElementsRequired (required : Bool) | parent
  | assertAllTouched (message : Option Str) (only skip : List Str)
  | commentError (message : Str) | error (message : Str) | keyError (message : Str) | valueError (message : Str)
  | comment (required : Bool) (loader : Str → Program)
  | key (loader : Str → Program)
  | value (required : Bool) (loader : Str → Program)
  | values (required : Bool) (loader : Str → Program)
  | assertAllTouchedBy (message : Nat → Program) (only skip : List Str)
  | commentErrorBy (message : Option Str → Program)
  | errorBy (message : Nat → Program)
  | keyErrorBy (message : Str → Program)
  | valueErrorBy (message : Option Str → Program)
end

/-- What functions that make messages return is a text. -/
def asMessage (m : Api Val) : Api Str := do
  match ← m with
  | .text s => pure s
  | _ => raise (.py .typeError)

mutual
/-- Run a program that got the given errors before and sees what `look` says of errors. Made-up errors cannot be returned. -/
def Program.execSeen (look : ErrObj → ErrObj) (E : Env) : Program → List ErrObj → Api Val
  | .ret v, _ => fun w => if v.errors = [] then (.ok v, w) else (.error (.py .typeError), w)
  | .give n, got => fun w =>
    match got[n]? with
    | some e => (.ok (.error e), w)
    | none => (.error (.py .indexError), w)
  | .raise e, _ => fun w => (.error (.py e), w)
  | .reject s, _ => fun w => (.error (.valueError s), w)
  | .again n, got => fun w =>
    match got[n]? with
    | some e => (.error (.validation e), w)
    | none => (.error (.py .indexError), w)
  | .call o m next, got => fun w =>
    let r := run E o (m.method look E got) w
    (next (seenResult look r.1)).execSeen look E (got ++ errorsOf r.1) r.2
  | .missing x m next, got => fun w =>
    let r := runMissing E x m w
    (next (seenResult look r.1)).execSeen look E (got ++ errorsOf r.1) r.2

/-- The method that is called. -/
def Act.method (look : ErrObj → ErrObj) (E : Env) (got : List ErrObj) : Act → Method
  | .raw => .raw
  | .repr => .repr
  | .touch => .touch
  | .to k => .to k
  | .yields k => .yields k
  | .toEntry => .toEntry
  | .toItem => .toItem
  | .yieldsEntry => .yieldsEntry
  | .yieldsItem => .yieldsItem
  | .items => .items
  | .length => .length
  | .entries k => .entries k
  | .entry k r => .entry k r
  | .allEntriesRequired r => .allEntriesRequired r
  | .one x k r => .one x k r
  | .many x k => .many x k
  | .allElementsRequired r => .allElementsRequired r
  | .parent => .parent
  | .assertAllTouched m only skip => .assertAllTouched (m.map .text) only skip
  | .commentError m => .commentError (.text m)
  | .error m => .error (.text m)
  | .keyError m => .keyError (.text m)
  | .valueError m => .valueError (.text m)
  | .comment r f => .comment r fun s => (f s).execSeen look E got
  | .key f => .key fun s => (f s).execSeen look E got
  | .value r f => .value r fun s => (f s).execSeen look E got
  | .values r f => .values r fun s => (f s).execSeen look E got
  | .assertAllTouchedBy f only skip => .assertAllTouched (some (.fn fun y => asMessage ((f y).execSeen look E got))) only skip
  | .commentErrorBy f => .commentError (.fn fun s => asMessage ((f s).execSeen look E got))
  | .errorBy f => .error (.fn fun y => asMessage ((f y).execSeen look E got))
  | .keyErrorBy f => .keyError (.fn fun s => asMessage ((f s).execSeen look E got))
  | .valueErrorBy f => .valueError (.fn fun s => asMessage ((f s).execSeen look E got))
end

/-- Run a program that sees errors without their snippets. -/
abbrev Program.exec (E : Env) (p : Program) (got : List ErrObj) : Api Val := p.execSeen ErrObj.blank E got

/-- What comes of a program that starts in the world. -/
def Program.outcome (E : Env) (p : Program) (w : World) : Except Exc Val := (p.exec E [] w).1

/-- The same for a program that sees only the messages of errors. -/
def Program.spokenOutcome (E : Env) (p : Program) (w : World) : Except Exc Val := (p.execSeen ErrObj.spoken E [] w).1

end Eno.El

namespace Eno.Spec

/-- A position in a document: an index on a line, the column counted from the beginning of the line, and a line number that is not too high. It is right if no line is connected
with another one. -/
def PositionIn (input : Str) (c : Cursor) : Prop :=
  ∃ lb le, IsLine input lb le ∧ lb ≤ c.index ∧ c.index ≤ le ∧ c.column = (c.index : Int) - lb ∧ c.line ≤ nlBefore input lb ∧ (Neat input → c.line = nlBefore input lb)

/-- A selection of a part of a document. -/
structure SelectionIn (input : Str) (sel : Selection) : Prop where
  start : PositionIn input sel.start
  stop : PositionIn input sel.stop
  order : sel.start.index ≤ sel.stop.index
  lines : sel.start.line ≤ sel.stop.line

/-- Something that there can be a complaint about: it concerns what is written in the document, and the message that it needs is there. -/
def Complaint.Proper (h : Heap) : Complaint → Prop
  | .comment _ r => ∃ b, FirstLine h r b
  | .element _ r => ∃ b, FirstLine h r b
  | .key _ r => ∃ b, FirstLine h r b
  | .missingComment r => ∃ b, FirstLine h r b
  | .value _ r => (∃ b, FirstLine h r b) ∧ h.type r ∈ [Ty.field, .empty, .mlBegin, .listItem, .fieldsetEntry]
  | .missingValue r => (∃ b, FirstLine h r b) ∧ h.type r ∈ [Ty.field, .empty, .mlBegin, .listItem, .fieldsetEntry]
  | .missingElement _ p n => p < h.length ∧ n ≠ .expectedFieldsetEntry ∧ n ≠ .expectedListItem
  | .unexpected _ r => ∃ b, FirstLine h r b
  | .several _ rs n => rs ≠ [] ∧ (∀ r ∈ rs, ∃ b, FirstLine h r b) ∧ n ≠ .expectedFieldsetEntry ∧ n ≠ .expectedListItem
  | .wrongType _ r n => (∃ b, FirstLine h r b) ∧ n ≠ .expectedFieldsetEntry ∧ n ≠ .expectedListItem

end Eno.Spec
