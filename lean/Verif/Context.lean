import Verif.Resolver

/-!
# `Context`: reading values, comments, items, entries and elements

`/repo/python/enolib/context.py:20-195`. The Python code stores what it computes in the instruction dictionaries (`computed_comment`,
`computed_value`, …). Here these keys are the fields of `Cache`, a function takes the cache and returns its result (or exception) with
the cache afterwards.
-/

namespace Eno

/-- `instruction['comments']` -/
def Heap.comments (h : Heap) : Ref → Option (List Comment)
  | .elem i => (h.at i).comments
  | r => (h.sub? r).bind (·.comments)

/-- `instruction['mirror']`; only section-level elements have one. -/
def Heap.mirror? (h : Heap) : Ref → Option Nat
  | .elem i => (h.at i).mirror
  | _ => none

/-- `instruction['type']` -/
def Heap.type (h : Heap) : Ref → Ty
  | .elem i => (h.at i).type
  | .item .. => .listItem
  | .entry .. => .fieldsetEntry

/-- `instruction['key']`, for instructions that have one. -/
def Heap.key? (h : Heap) : Ref → Option Str
  | .elem i => if (h.at i).type = .document then none else some (h.at i).key
  | r => (h.sub? r).bind (·.key)

/-- The references of a list to its own items. -/
def Heap.ownItems (h : Heap) (i : Nat) : Option (List Ref) := (h.at i).items.map fun xs => (List.range xs.length).map (Ref.item i)

/-- The references of a fieldset to its own entries. -/
def Heap.ownEntries (h : Heap) (i : Nat) : Option (List Ref) := (h.at i).entries.map fun xs => (List.range xs.length).map (Ref.entry i)

/-- The `computed_…` keys of all instructions. `computed_elements_map` and `computed_entries_map` are only read by the function that writes
them, while it runs, and are not kept. -/
structure Cache where
  comment : Ref → Option (Option Str)
  value : Ref → Option (Option Str)
  items : Nat → Option (List Ref)
  entries : Nat → Option (List Ref)
  elements : Nat → Option (List Nat)

/-- After loading nothing has been computed. -/
def Cache.empty : Cache := ⟨fun _ => none, fun _ => none, fun _ => none, fun _ => none, fun _ => none⟩

/-- `d[k] = v` -/
def upd {α β} [DecidableEq α] (f : α → Option β) (k : α) (v : β) : α → Option β := fun x => if x = k then some v else f x

/-- A computation that may raise and stores what it computes. -/
abbrev Read (α : Type) := Cache → Except PyExc α × Cache

/-! ## Comments -/

/-- `comment['ranges']['comment'][BEGIN] - comment['ranges']['line'][BEGIN]` -/
def Comment.indent (c : Comment) : Except PyExc Int :=
  match c.range? .comment, c.range? .line with
  | some (b, _), some (l, _) => .ok ((b : Int) - l)
  | _, _ => .error .keyError

/-- The loop of context.py:26-39: first and last non-empty line and smallest indent (`none` is `math.inf`). -/
def scanComments : List Comment → Nat → Option Nat × Option Int × Option Nat → Except PyExc (Option Nat × Option Int × Option Nat)
  | [], _, r => .ok r
  | c :: cs, index, (first, shared, last) =>
    if c.comment.isSome then
      match c.indent with
      | .error e => .error e
      | .ok n =>
        let shared := match shared with
          | none => some n
          | some m => if n < m then some n else some m
        scanComments cs (index + 1) (some (first.getD index), shared, some index)
    else scanComments cs (index + 1) (first, shared, last)

/-- context.py:44-50 -/
def indented (shared : Int) (c : Comment) : Except PyExc Str :=
  match c.comment with
  | none => .ok []
  | some s =>
    match c.indent with
    | .error e => .error e
    | .ok n => if n = shared then .ok s else .ok (List.replicate (n - shared).toNat ' ' ++ s)

/-- `'\n'.join(…)` -/
def joinLines : List Str → Str
  | [] => []
  | [s] => s
  | s :: t => s ++ '\n' :: joinLines t

/-- All results, or the first exception. -/
def allOk {α} : List (Except PyExc α) → Except PyExc (List α)
  | [] => .ok []
  | .error e :: _ => .error e
  | .ok a :: t =>
    match allOk t with
    | .error e => .error e
    | .ok l => .ok (a :: l)

/-- context.py:22-56, what is computed for `computed_comment`. -/
def computeComment : Option (List Comment) → Except PyExc (Option Str)
  | none => .ok none
  | some [c] =>
    match c.comment with
    | none => .error .keyError
    | some s => .ok (some s)
  | some cs =>
    match scanComments cs 0 (none, none, none) with
    | .error e => .error e
    | .ok (some first, some shared, some last) =>
      match allOk (((cs.take (last + 1)).drop first).map (indented shared)) with
      | .error e => .error e
      | .ok ls => .ok (some (joinLines ls))
    | .ok _ => .ok none

/-- context.py:20-58 -/
def readComment (h : Heap) (r : Ref) : Read (Option Str) := fun c =>
  match c.comment r with
  | some v => (.ok v, c)
  | none =>
    match computeComment (h.comments r) with
    | .error e => (.error e, c)
    | .ok v => (.ok v, { c with comment := upd c.comment r v })

/-! ## Values -/

/-- One round of the loop of context.py:181-193: the value so far and `unapplied_spacing` (`None` and `False` are not distinguished, the code
only tests its truth). -/
def applyCont : Option Str × Bool → Cont → Option Str × Bool
  | (none, _), c => (c.value, false)
  | (some v, sp), c =>
    match c.value with
    | none => (some v, sp || c.spaced)
    | some x => if c.spaced || sp then (some (v ++ ' ' :: x), false) else (some (v ++ x), false)

/-- context.py:175-193 -/
def composeValue (value : Option Str) (conts : Option (List Cont)) : Option Str := ((conts.getD []).foldl applyCont (value, false)).1

/-- context.py:167-193, for an instruction without mirror. -/
def computeValue (input : Str) (h : Heap) : Ref → Except PyExc (Option Str)
  | .elem i =>
    if (h.at i).type = .mlBegin then
      match (h.at i).lines with
      | none => .ok none
      | some ls =>
        match ls.head?, ls.getLast? with
        | some a, some b =>
          match a.range? .line, b.range? .line with
          | some (x, _), some (_, y) => .ok (some ((input.take y).drop x))
          | _, _ => .error .keyError
        | _, _ => .error .indexError
    else .ok (composeValue (h.at i).value (h.at i).continuations)
  | r =>
    match h.sub? r with
    | some x => .ok (composeValue x.value x.continuations)
    | none => .ok none

/-- context.py:162-195; the first argument is fuel. -/
def readValue (input : Str) (h : Heap) : Nat → Ref → Read (Option Str)
  | 0, _ => fun c => (.error .recursionError, c)
  | n + 1, r => fun c =>
    match c.value r with
    | some v => (.ok v, c)
    | none =>
      match h.mirror? r with
      | some m => readValue input h n (.elem m) c
      | none =>
        match computeValue input h r with
        | .error e => (.error e, { c with value := upd c.value r none })
        | .ok v => (.ok v, { c with value := upd c.value r v })

/-! ## Items, entries and elements -/

/-- context.py:114-127 -/
def readItems (h : Heap) : Nat → Nat → Read (List Ref)
  | 0, _ => fun c => (.error .recursionError, c)
  | n + 1, i => fun c =>
    match (h.at i).mirror with
    | some m => readItems h n m c
    | none =>
      match (h.at i).extend with
      | some t =>
        match c.items i with
        | some xs => (.ok xs, c)
        | none =>
          match readItems h n t c with
          | (.error e, c) => (.error e, c)
          | (.ok xs, c) =>
            match h.ownItems i with
            | none => (.error .keyError, c)
            | some own => (.ok (xs ++ own), { c with items := upd c.items i (xs ++ own) })
      | none => (.ok ((h.ownItems i).getD []), c)

/-- Those of `xs` whose key none of `own` has. -/
def notIn (h : Heap) (own xs : List Ref) : List Ref := xs.filter fun r => !(own.map h.key?).contains (h.key? r)

/-- context.py:87-112 -/
def readEntries (h : Heap) : Nat → Nat → Read (List Ref)
  | 0, _ => fun c => (.error .recursionError, c)
  | n + 1, i => fun c =>
    match (h.at i).mirror with
    | some m => readEntries h n m c
    | none =>
      match c.entries i with
      | some xs => (.ok xs, c)
      | none =>
        match h.ownEntries i with
        | none => (.error .keyError, c)
        | some own =>
          let c := { c with entries := upd c.entries i own }                            -- :93
          match (h.at i).extend with
          | none => (.ok own, c)
          | some t =>
            match readEntries h n t c with
            | (.error e, c) => (.error e, c)
            | (.ok xs, c) => (.ok (notIn h own xs ++ own), { c with entries := upd c.entries i (notIn h own xs ++ own) })

/-- context.py:60-85; a mirrored section returns `None`. -/
def readElements (h : Heap) : Nat → Nat → Read (Option (List Nat))
  | 0, _ => fun c => (.error .recursionError, c)
  | n + 1, s => fun c =>
    match (h.at s).mirror with
    | some m =>                                                                         -- :61-62
      match readElements h n m c with
      | (.error e, c) => (.error e, c)
      | (.ok _, c) => (.ok none, c)
    | none =>
      match c.elements s with
      | some xs => (.ok (some xs), c)
      | none =>
        let own := (h.at s).elements
        let c := { c with elements := upd c.elements s own }                            -- :66
        match (h.at s).extend with
        | none => (.ok (some own), c)
        | some t =>
          match readElements h n t c with
          | (.error e, c) => (.error e, c)
          | (.ok none, c) => (.error .typeError, c)                                     -- iterating `None`, :75
          | (.ok (some xs), c) =>
            let all := (xs.filter fun i => !(own.map fun j => (h.at j).key).contains (h.at i).key) ++ own
            (.ok (some all), { c with elements := upd c.elements s all })

/-! ## Raw output -/

/-- Apply a reading function to each reference. -/
def readAll {α} (f : Ref → Read α) : List Ref → Read (List α)
  | [] => fun c => (.ok [], c)
  | r :: rs => fun c =>
    match f r c with
    | (.error e, c) => (.error e, c)
    | (.ok a, c) =>
      match readAll f rs c with
      | (.error e, c) => (.error e, c)
      | (.ok as, c) => (.ok (a :: as), c)

/-- `if 'comments' in element: result['comment'] = self.comment(element)` — context.py:132-133 -/
def readCommentKey (h : Heap) (r : Ref) : Read (Option (Option Str)) := fun c =>
  if (h.comments r).isSome then
    match readComment h r c with
    | (.error e, c) => (.error e, c)
    | (.ok v, c) => (.ok (some v), c)
  else (.ok none, c)

/-- context.py:129-160; the first argument is fuel, for nested calls as well. -/
def readRaw (input : Str) (h : Heap) : Nat → Ref → Read Raw
  | 0, _ => fun c => (.error .recursionError, c)
  | n + 1, r => fun c =>
    match readCommentKey h r c with
    | (.error e, c) => (.error e, c)
    | (.ok comment, c) =>
      let children (xs : List Ref) (c : Cache) : Except PyExc Raw × Cache :=
        match readAll (readRaw input h n) xs c with
        | (.error e, c) => (.error e, c)
        | (.ok l, c) => (.ok (.node (h.type r) comment (h.key? r) l), c)
      match r with
      | .elem i =>
        match (h.at i).type with
        | .empty => (.ok (.leaf .empty comment (h.key? r) none), c)                      -- :135-136
        | .list =>                                                                      -- :148-150
          match readItems h n i c with
          | (.error e, c) => (.error e, c)
          | (.ok xs, c) => children xs c
        | .fieldset =>                                                                  -- :151-153
          match readEntries h n i c with
          | (.error e, c) => (.error e, c)
          | (.ok xs, c) => children xs c
        | .section | .document =>                                                       -- :154-158
          match readElements h n i c with
          | (.error e, c) => (.error e, c)
          | (.ok none, c) => (.error .typeError, c)
          | (.ok (some xs), c) => children (xs.map .elem) c
        | ty =>                                                                         -- :137-147
          match readValue input h n r c with
          | (.error e, c) => (.error e, c)
          | (.ok v, c) => (.ok (.leaf ty comment (h.key? r) (some v)), c)
      | _ =>
        match readValue input h n r c with
        | (.error e, c) => (.error e, c)
        | (.ok v, c) => (.ok (.leaf (h.type r) comment (h.key? r) (some v)), c)

end Eno
