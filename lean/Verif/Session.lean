import Verif.Context

/-!
# Using a `Context`

A program that has a `Context` asks it for values, comments, items, entries, elements and raw output, in any order and as often as it likes. The only
state is the cache.
-/

namespace Eno

/-- A call of one of the reading methods of `/repo/python/enolib/context.py:20-195`. -/
inductive Query where
  | value (r : Ref)
  | comment (r : Ref)
  | items (i : Nat)
  | entries (i : Nat)
  | elements (s : Nat)
  | raw (r : Ref)

/-- What the methods return. -/
inductive Answer where
  | text (s : Option Str)
  | refs (xs : List Ref)
  | elements (xs : Option (List Nat))
  | raw (x : Raw)

/-- Rename the result. -/
def Read.map {α β} (g : α → β) (f : Read α) : Read β := fun c =>
  match f c with
  | (.ok a, c) => (.ok (g a), c)
  | (.error e, c) => (.error e, c)

/-- Call the method; `fuel` is the recursion depth that Python allows. -/
def Query.run (input : Str) (h : Heap) (fuel : Nat) : Query → Read Answer
  | .value r => Read.map .text (readValue input h fuel r)
  | .comment r => Read.map .text (readComment h r)
  | .items i => Read.map .refs (readItems h fuel i)
  | .entries i => Read.map .refs (readEntries h fuel i)
  | .elements s => Read.map .elements (readElements h fuel s)
  | .raw r => Read.map .raw (readRaw input h fuel r)

/-- The caches that a program can have produced which only makes calls that satisfy `ok`. -/
inductive Session (input : Str) (h : Heap) (fuel : Nat) (ok : Query → Prop) : Cache → Prop where
  | start : Session input h fuel ok .empty
  | ask {c q} : Session input h fuel ok c → ok q → Session input h fuel ok (q.run input h fuel c).2

end Eno
