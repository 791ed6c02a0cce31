import Verif.Grammar

/-!
# Reading the match groups

`Analyzer.analyze` (`/repo/python/enolib/analyzer.py:66-459`) inspects the groups of
the match in a fixed order. `tokOf` performs the same inspection and collects what the branch taken reads
from the match. A group that the branch reads but that is not set would make the Python code read `None`;
`tokOf` returns `none` then (proved impossible in `Verif/Props/GrammarProps.lean`).
-/

namespace Eno

/-- The key groups of a line: unescaped key, or escape begin operator, key, escape end operator. -/
inductive KeyTok where
  | plain (key : Cap)
  | escaped (bgn key fin : Cap)
deriving DecidableEq, Repr

/-- What a recognised line contains. -/
inductive Body where
  | empty
  | element (k : KeyTok) (op : Cap) (value : Option Cap)
  | listItem (op : Cap) (value : Option Cap)
  | entry (k : KeyTok) (op : Cap) (value : Option Cap)
  | continuation (spaced : Bool) (op : Cap) (value : Option Cap)
  | heading (op : Cap) (k : KeyTok) (copy : Option (Cap × Cap))
  | multiline (op : Cap) (key : Cap)
  | comment (op : Cap) (comment : Option Cap)
  | copy (k : KeyTok) (op : Cap) (template : Cap)
deriving DecidableEq, Repr

/-- A recognised line: `match.end()` and its contents. -/
structure Tok where
  fin : Nat
  body : Body
deriving DecidableEq, Repr

/-- The text of a key — `analyzer.py:94-104, 158-169, 277-285, 432-440` -/
def KeyTok.text : KeyTok → Str
  | .plain k => k.text
  | .escaped _ k _ => k.text

/-- analyzer.py:94-104 (and 158-169, 432-440 with groups 19-22; 277-285 with groups 13-16): the
unescaped key group if set, else the escaped ones. `p` is the group number of the unescaped key. -/
def keyOf (caps : Nat → Option Cap) (p : Nat) : Option KeyTok :=
  match caps p with
  | some k => some (.plain k)
  | none =>
    match caps (p + 1), caps (p + 2), caps (p + 3) with
    | some b, some k, some e => some (.escaped b k e)
    | _, _, _ => none

/-- The branch structure of `analyzer.py:82-455`: groups are tested in this order. -/
def bodyOf (caps : Nat → Option Cap) : Option Body :=
  if (caps 1).isSome then some .empty                                          -- :82
  else match caps 23 with                                                      -- :88
  | some op => (keyOf caps 19).map fun k => .element k op (caps 24)
  | none => match caps 8 with                                                  -- :120
  | some op => some (.listItem op (caps 9))
  | none => match caps 25 with                                                 -- :150
  | some op => (keyOf caps 19).map fun k => .entry k op (caps 26)
  | none => match caps 4 with                                                  -- :192
  | some op => some (.continuation true op (caps 5))
  | none => match caps 2 with                                                  -- :220
  | some op => some (.continuation false op (caps 3))
  | none => match caps 12 with                                                 -- :247
  | some op =>
    match keyOf caps 13 with
    | none => none
    | some k =>
      match caps 18 with                                                       -- :287-289
      | none => some (.heading op k none)
      | some t => (caps 17).map fun c => .heading op k (some (c, t))           -- :298
  | none => match caps 10 with                                                 -- :319
  | some op => (caps 11).map fun k => .multiline op k
  | none => match caps 6 with                                                  -- :403
  | some op => some (.comment op (caps 7))
  | none => match caps 27 with                                                 -- :419
  | some op =>
    match keyOf caps 19, caps 28 with
    | some k, some t => some (.copy k op t)
    | _, _ => none
  | none => none

/-- The token of a match. -/
def tokOf (st : St) : Option Tok := (bodyOf st.caps).map (⟨st.pos, ·⟩)

/-- `Grammar.REGEX.search(input, index)` followed by the test `match.start() != index`
(`analyzer.py:67-69`): a search from `index` whose leftmost match must start at `index`
succeeds iff the pattern matches at `index`, and then it is that match. -/
def recognise (pos : Nat) (rest : Str) : Option St :=
  match Re.search Grammar.REGEX pos rest with
  | some (start, st) => if start = pos then some st else none
  | none => none

/-- The recognised line at an offset: `none` if no pattern matches there. -/
def tokAt (pos : Nat) (rest : Str) : Option Tok := (recognise pos rest).bind tokOf

end Eno
