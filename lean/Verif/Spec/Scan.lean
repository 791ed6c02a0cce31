import Verif.Tok

/-!
# Specification of the line grammar

An independent description of what a line of an eno document is: a left-to-right scanner built from
`takeWhile`/`dropWhile` and trimming, with no regular expressions and no backtracking except the search for the
closing backticks of an escaped key. `scan pos s` describes the line that starts at offset `pos`, where `s` is
the remaining input.
-/

namespace Eno.Spec

/-- The text up to the next line feed. -/
def lineOf (s : Str) : Str := s.takeWhile (· != '\n')

/-- Remove trailing horizontal white space. -/
def trimEnd (s : Str) : Str := (s.reverse.dropWhile isHs).reverse

/-- The number of leading characters satisfying `p`. -/
def runLen (p : Char → Bool) (s : Str) : Nat := (s.takeWhile p).length

/-- The rest of the line, trimmed on both sides: `none` if nothing is left. `pos` is the offset of `s`. -/
def valueAt (pos : Nat) (s : Str) : Option Cap :=
  let h := runLen isHs s
  let v := trimEnd (lineOf (s.drop h))
  if v = [] then none else some ⟨pos + h, pos + h + v.length, v⟩

/-- Offset of the end of the line. -/
def eolAt (pos : Nat) (s : Str) : Nat := pos + (lineOf s).length

/-- The part of a line after its key (fields, entries, copies): white space — *including line feeds* — then
one of `:`, `=`, `<`. The template after `<` may also stand on a later line. -/
def afterKey (pos : Nat) (s : Str) (k : KeyTok) : Option Tok :=
  let n := runLen isSp s
  let p := pos + n
  match s.drop n with
  | ':' :: t => some ⟨eolAt (p + 1) t, .element k ⟨p, p + 1, [':']⟩ (valueAt (p + 1) t)⟩
  | '=' :: t => some ⟨eolAt (p + 1) t, .entry k ⟨p, p + 1, ['=']⟩ (valueAt (p + 1) t)⟩
  | '<' :: t =>
    let g := runLen isSp t
    (valueAt (p + 1 + g) (t.drop g)).map fun v =>
      ⟨eolAt (p + 1 + g) (t.drop g), .copy k ⟨p, p + 1, ['<']⟩ v⟩
  | _ => none

/-- The part of a heading after its key: nothing, or `<`/`<<` and a template. -/
def afterHeadingKey (op : Cap) (pos : Nat) (s : Str) (k : KeyTok) : Option Tok :=
  let n := runLen isHs s
  let p := pos + n
  match s.drop n with
  | [] => some ⟨p, .heading op k none⟩
  | '\n' :: _ => some ⟨p, .heading op k none⟩
  | '<' :: '<' :: t =>
    (valueAt (p + 2) t).map fun v => ⟨eolAt (p + 2) t, .heading op k (some (⟨p, p + 2, ['<', '<']⟩, v))⟩
  | '<' :: t =>
    (valueAt (p + 1) t).map fun v => ⟨eolAt (p + 1) t, .heading op k (some (⟨p, p + 1, ['<']⟩, v))⟩
  | _ => none

/-- An escaped key: a run of `n` backticks, the key, `n` backticks, with optional horizontal white space inside.
The key is the shortest one for which what follows the closing backticks makes sense (`after`). -/
def escapedKey (after : Nat → Str → KeyTok → Option Tok) (pos : Nat) (s : Str) : Option Tok :=
  let n := runLen (· == '`') s
  let h := runLen isHs (s.drop n)
  let q := pos + n + h
  let r := s.drop (n + h)
  (List.range (lineOf r).length).findSome? fun i =>
    let g := runLen isHs (r.drop (i + 1))
    let e := q + (i + 1) + g
    let a := r.drop (i + 1 + g)
    if a.take n = s.take n then
      after (e + n) (a.drop n) (.escaped ⟨pos, pos + n, s.take n⟩ ⟨q, q + (i + 1), r.take (i + 1)⟩
        ⟨e, e + n, s.take n⟩)
    else none

/-- A plain key: the text up to the first character excluded by `p`, trimmed at the end. -/
def plainKey (p : Char → Bool) (after : Nat → Str → KeyTok → Option Tok) (pos : Nat) (s : Str) : Option Tok :=
  let body := s.takeWhile p
  let k := trimEnd body
  after (pos + body.length) (s.drop body.length) (.plain ⟨pos, pos + k.length, k⟩)

/-- A heading: a run of `#`, white space — *including line feeds* —, a key, optionally a template. -/
def headingAt (pos : Nat) (s : Str) : Option Tok :=
  let d := runLen (· == '#') s
  let n := runLen isSp (s.drop d)
  let op : Cap := ⟨pos, pos + d, s.take d⟩
  let q := pos + d + n
  let r := s.drop (d + n)
  match r with
  | [] => none
  | '<' :: _ => none
  | '`' :: _ => escapedKey (afterHeadingKey op) q r
  | _ => plainKey (fun c => c != '<' && c != '\n') (afterHeadingKey op) q r

/-- A dash line: a list item for one dash, a multiline field opener for two or more. -/
def dashAt (pos : Nat) (s : Str) : Option Tok :=
  let d := runLen (· == '-') s
  if d = 1 then
    some ⟨eolAt (pos + 1) (s.drop 1), .listItem ⟨pos, pos + 1, ['-']⟩ (valueAt (pos + 1) (s.drop 1))⟩
  else
    (valueAt (pos + d) (s.drop d)).map fun v =>
      ⟨eolAt (pos + d) (s.drop d), .multiline ⟨pos, pos + d, s.take d⟩ v⟩

/-- The line starting at offset `pos`. -/
def scan (pos : Nat) (s : Str) : Option Tok :=
  let h := runLen isHs s
  let p := pos + h
  let r := s.drop h
  match r with
  | [] => some ⟨p, .empty⟩
  | c :: t =>
    if c = '\n' then some ⟨p, .empty⟩
    else if c = '|' then
      some ⟨eolAt (p + 1) t, .continuation false ⟨p, p + 1, ['|']⟩ (valueAt (p + 1) t)⟩
    else if c = '\\' then
      some ⟨eolAt (p + 1) t, .continuation true ⟨p, p + 1, ['\\']⟩ (valueAt (p + 1) t)⟩
    else if c = '>' then
      some ⟨eolAt (p + 1) t, .comment ⟨p, p + 1, ['>']⟩ (valueAt (p + 1) t)⟩
    else if c = '-' then dashAt p r
    else if c = '#' then headingAt p r
    else if c = '`' then escapedKey afterKey p r
    else if c = ':' ∨ c = '=' ∨ c = '<' then none
    else plainKey (fun c => c != '\n' && c != ':' && c != '=' && c != '<') afterKey p r

end Eno.Spec
