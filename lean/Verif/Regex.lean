import Verif.Basic

/-!
# Python's backtracking regular expressions

This file models the part of CPython's `re` engine that
`/repo/python/enolib/grammar_regex.py`, `/repo/python/enolib/analyzer.py:336` and
`/repo/python/enolib/errors/parsing.py:7` use: character classes, sequence, ordered
alternation, greedy and lazy repetition, numbered groups, back-references, positive and negative
look-ahead and `$`. The matcher `Re.run` tries alternatives in exactly the order in which the
backtracking engine does and returns the first success; a path carries its own group table, so groups
set on an abandoned path are forgotten.
-/

namespace Eno

/-- A matched group: `match.span(n) = (b, e)` and `match.group(n) = text`. -/
structure Cap where
  b : Nat
  e : Nat
  text : Str
deriving DecidableEq, Repr

/-- Matcher position: absolute offset, remaining input, groups set so far. -/
structure St where
  pos : Nat
  rest : Str
  caps : Nat → Option Cap

/-- Regular expression syntax. -/
inductive Re where
  /-- the empty expression -/
  | eps
  /-- one character of a class -/
  | chr (p : Char → Bool)
  | seq (a b : Re)
  /-- `a|b`, `a` is tried first -/
  | alt (a b : Re)
  /-- `(?:a)*` (greedy) or `(?:a)*?` (lazy) -/
  | star (greedy : Bool) (a : Re)
  /-- `(a)` as group number `n` -/
  | grp (n : Nat) (a : Re)
  /-- `\n` back-reference -/
  | bref (n : Nat)
  /-- `(?!a)` -/
  | nla (a : Re)
  /-- `(?=a)` -/
  | la (a : Re)
  /-- `$` without `re.MULTILINE`: end of input, or before a line feed that ends the input -/
  | eos

namespace Re

/-- `a|b` priority choice on results. -/
def orElse (a : Option St) (b : Unit → Option St) : Option St :=
  match a with
  | some x => some x
  | none => b ()

/-- Advance over `n` characters. -/
def adv (st : St) (n : Nat) : St := { st with pos := st.pos + n, rest := st.rest.drop n }

/-- Set group `n`. -/
def setCap (caps : Nat → Option Cap) (n : Nat) (c : Cap) : Nat → Option Cap :=
  fun i => if i = n then some c else caps i

/-- Repetition loop; `fuel` bounds the number of iterations (each iteration must consume input, as in
`sre`, so the remaining length is enough fuel). -/
def starGo (ma : St → (St → Option St) → Option St) (greedy : Bool) :
    Nat → St → (St → Option St) → Option St
  | 0, st, k => k st
  | n + 1, st, k =>
    if greedy then
      orElse (ma st fun st' => if st'.pos = st.pos then none else starGo ma greedy n st' k)
        fun _ => k st
    else
      orElse (k st) fun _ =>
        ma st fun st' => if st'.pos = st.pos then none else starGo ma greedy n st' k

/-- The matcher, in continuation passing style: `run r st k` is the first success of `k` over all ways of
matching `r` at `st`, in backtracking order. -/
def run : Re → St → (St → Option St) → Option St
  | eps, st, k => k st
  | chr p, st, k =>
    match st.rest with
    | [] => none
    | c :: _ => if p c then k (adv st 1) else none
  | seq a b, st, k => run a st fun st' => run b st' k
  | alt a b, st, k => orElse (run a st k) fun _ => run b st k
  | star g a, st, k => starGo (run a) g st.rest.length st k
  | grp n a, st, k =>
    run a st fun st' =>
      k { st' with caps := setCap st'.caps n ⟨st.pos, st'.pos, st.rest.take (st'.pos - st.pos)⟩ }
  | bref n, st, k =>
    match st.caps n with
    | none => none
    | some c => if c.text.isPrefixOf st.rest then k (adv st c.text.length) else none
  | nla a, st, k =>
    match run a st some with
    | some _ => none
    | none => k st
  | la a, st, k =>
    match run a st some with
    | some st' => k { st with caps := st'.caps }
    | none => none
  | eos, st, k => if st.rest = [] ∨ st.rest = ['\n'] then k st else none

/-- `pattern.match(s, pos)`: the match starting at the given position. -/
def matchAt (r : Re) (pos : Nat) (rest : Str) : Option St :=
  run r ⟨pos, rest, fun _ => none⟩ some

/-- `pattern.search(s, pos)`: leftmost match at or after the position, with its start offset. -/
def search (r : Re) (pos : Nat) : Str → Option (Nat × St)
  | [] => (matchAt r pos []).map (pos, ·)
  | c :: t =>
    match matchAt r pos (c :: t) with
    | some st => some (pos, st)
    | none => search r (pos + 1) t

/-! Abbreviations for pattern syntax. -/

/-- a literal character -/
def lit (c : Char) : Re := chr (· == c)
/-- a literal string (`re.escape(s)`) -/
def str : Str → Re
  | [] => eps
  | c :: t => seq (lit c) (str t)
/-- `a+` greedy -/
def plus (a : Re) : Re := seq a (star true a)
/-- `a+?` lazy -/
def plusLazy (a : Re) : Re := seq a (star false a)
/-- `(?:a)?` greedy -/
def opt (a : Re) : Re := alt a eps

end Re
end Eno
