import Verif.Tok
import Verif.Spec.Scan

/-!
# Position-free reading of a line

What a line says, without offsets, and the text that remains behind it. `readLine` is a second, shorter
description of the line grammar; `Verif/Proofs/LineLemmas.lean` proves that it is the scanner without offsets.
-/

namespace Eno.Spec

/-- The content of a line. -/
inductive Line where
  | empty
  | element (key : Str) (value : Option Str)
  | listItem (value : Option Str)
  | entry (key : Str) (value : Option Str)
  | continuation (spaced : Bool) (value : Option Str)
  | heading (depth : Nat) (key : Str) (copy : Option (Bool × Str))
  | multiline (dashes : Nat) (key : Str)
  | comment (text : Option Str)
  | copy (key template : Str)
deriving DecidableEq, Repr

/-- Forget the offsets of a recognised line. -/
def Line.ofBody : Body → Line
  | .empty => .empty
  | .element k _ v => .element k.text (v.map (·.text))
  | .listItem _ v => .listItem (v.map (·.text))
  | .entry k _ v => .entry k.text (v.map (·.text))
  | .continuation sp _ v => .continuation sp (v.map (·.text))
  | .heading op k c => .heading op.text.length k.text (c.map fun (o, t) => (o.text.length == 2, t.text))
  | .multiline op k => .multiline op.text.length k.text
  | .comment _ v => .comment (v.map (·.text))
  | .copy k _ t => .copy k.text t.text

/-- The rest of the line, trimmed; `none` if blank. -/
def valueOf (s : Str) : Option Str :=
  let v := trimEnd (lineOf (s.dropWhile isHs))
  if v = [] then none else some v

/-- The text from the next line feed on. -/
def nextOf (s : Str) : Str := s.dropWhile (· != '\n')

def readAfterKey (key : Str) (s : Str) : Option (Line × Str) :=
  match s.dropWhile isSp with
  | ':' :: t => some (.element key (valueOf t), nextOf t)
  | '=' :: t => some (.entry key (valueOf t), nextOf t)
  | '<' :: t => (valueOf (t.dropWhile isSp)).map fun v => (.copy key v, nextOf (t.dropWhile isSp))
  | _ => none

def readAfterHeading (depth : Nat) (key : Str) (s : Str) : Option (Line × Str) :=
  match s.dropWhile isHs with
  | [] => some (.heading depth key none, [])
  | '\n' :: t => some (.heading depth key none, '\n' :: t)
  | '<' :: '<' :: t => (valueOf t).map fun v => (.heading depth key (some (true, v)), nextOf t)
  | '<' :: t => (valueOf t).map fun v => (.heading depth key (some (false, v)), nextOf t)
  | _ => none

def readEscaped (after : Str → Str → Option (Line × Str)) (s : Str) : Option (Line × Str) :=
  let ticks := s.takeWhile (· == '`')
  let r := (s.dropWhile (· == '`')).dropWhile isHs
  (List.range (lineOf r).length).findSome? fun i =>
    let a := (r.drop (i + 1)).dropWhile isHs
    if a.take ticks.length = ticks then after (r.take (i + 1)) (a.drop ticks.length) else none

def readPlain (p : Char → Bool) (after : Str → Str → Option (Line × Str)) (s : Str) : Option (Line × Str) :=
  after (trimEnd (s.takeWhile p)) (s.dropWhile p)

def readHeading (s : Str) : Option (Line × Str) :=
  let depth := (s.takeWhile (· == '#')).length
  let r := (s.dropWhile (· == '#')).dropWhile isSp
  match r with
  | [] => none
  | '<' :: _ => none
  | '`' :: _ => readEscaped (readAfterHeading depth) r
  | _ => readPlain (fun c => c != '<' && c != '\n') (readAfterHeading depth) r

def readDash (s : Str) : Option (Line × Str) :=
  let d := (s.takeWhile (· == '-')).length
  let r := s.dropWhile (· == '-')
  if d = 1 then some (.listItem (valueOf r), nextOf r)
  else (valueOf r).map fun v => (.multiline d v, nextOf r)

/-- The content of the line at the beginning of `s`, and the text behind it (from its line feed on). -/
def readLine (s : Str) : Option (Line × Str) :=
  match s.dropWhile isHs with
  | [] => some (.empty, [])
  | c :: t =>
    if c = '\n' then some (.empty, c :: t)
    else if c = '|' then some (.continuation false (valueOf t), nextOf t)
    else if c = '\\' then some (.continuation true (valueOf t), nextOf t)
    else if c = '>' then some (.comment (valueOf t), nextOf t)
    else if c = '-' then readDash (c :: t)
    else if c = '#' then readHeading (c :: t)
    else if c = '`' then readEscaped readAfterKey (c :: t)
    else if c = ':' ∨ c = '=' ∨ c = '<' then none
    else readPlain (fun c => c != '\n' && c != ':' && c != '=' && c != '<') readAfterKey (c :: t)

end Eno.Spec
