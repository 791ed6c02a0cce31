import Verif.Resolver

/-!
# `/repo/python/enolib/lookup.py`

The `check_…` functions return a match, or `False`/`None` (both are `none` here, the callers only test for truth). Subscripts that
may be missing are exceptions. Lines and indices are natural numbers behind the range checks of `lookup`.
-/

namespace Eno

/-- `{ 'element': …, 'instruction': … }`; of the instruction only `ranges` is read afterwards. -/
structure Hit where
  element : Ref
  instruction : Option Base
deriving DecidableEq, Repr

/-- lookup.py:5-18 -/
def checkMultilineByLine (r : Ref) (e : Elem) (line : Nat) : Except PyExc (Option Hit) :=
  match e.fin with
  | none => .error .keyError
  | some f =>
    if line < e.line ∨ line > f.line then .ok none
    else if line = e.line then .ok (some ⟨r, some e.toBase⟩)
    else if line = f.line then .ok (some ⟨r, some f⟩)
    else
      match e.lines with
      | none => .error .keyError
      | some ls => .ok (some ⟨r, ls.find? (·.line = line)⟩)

/-- lookup.py:20-33 -/
def checkMultilineByIndex (r : Ref) (e : Elem) (index : Nat) : Except PyExc (Option Hit) :=
  match e.fin with
  | none => .error .keyError
  | some f =>
    if index < e.span.1 ∨ index > f.span.2 then .ok none
    else if index ≤ e.span.2 then .ok (some ⟨r, some e.toBase⟩)
    else if index ≥ f.span.1 then .ok (some ⟨r, some f⟩)
    else
      match e.lines with
      | none => .error .keyError
      | some ls => .ok (some ⟨r, ls.find? (index ≤ ·.span.2)⟩)

/-- The loop of lookup.py:45-49 -/
def contsByLine (r : Ref) (line : Nat) : List Cont → Option Hit
  | [] => none
  | c :: cs => if line = c.line then some ⟨r, some c.toBase⟩ else if line < c.line then some ⟨r, none⟩ else contsByLine r line cs

/-- The loop of lookup.py:61-65 -/
def contsByIndex (r : Ref) (index : Nat) : List Cont → Option Hit
  | [] => none
  | c :: cs => if index < c.span.1 then some ⟨r, none⟩ else if index ≤ c.span.2 then some ⟨r, some c.toBase⟩ else contsByIndex r index cs

/-- lookup.py:35-49, for a field, item or entry -/
def checkFieldByLine (r : Ref) (b : Base) (conts : Option (List Cont)) (line : Nat) : Except PyExc (Option Hit) :=
  if line < b.line then .ok none
  else if line = b.line then .ok (some ⟨r, some b⟩)
  else
    match conts with
    | none => .ok none
    | some cs =>
      match cs.getLast? with
      | none => .error .indexError
      | some l => if line > l.line then .ok none else .ok (contsByLine r line cs)

/-- lookup.py:51-65, for a field, item or entry -/
def checkFieldByIndex (r : Ref) (b : Base) (conts : Option (List Cont)) (index : Nat) : Except PyExc (Option Hit) :=
  if index < b.span.1 then .ok none
  else if index ≤ b.span.2 then .ok (some ⟨r, some b⟩)
  else
    match conts with
    | none => .ok none
    | some cs =>
      match cs.getLast? with
      | none => .error .indexError
      | some l => if index > l.span.2 then .ok none else .ok (contsByIndex r index cs)

/-- The loops of lookup.py:77-86 and 119-128; `n` is the position of the first item or entry of the list. -/
def subsByLine (whole : Ref) (ref : Nat → Ref) (line : Nat) : Nat → List Sub → Except PyExc (Option Hit)
  | _, [] => .ok none
  | n, x :: xs =>
    if line = x.line then .ok (some ⟨ref n, some x.toBase⟩)
    else if line < x.line then .ok (some ⟨whole, none⟩)
    else
      match checkFieldByLine (ref n) x.toBase x.continuations line with
      | .error e => .error e
      | .ok (some m) => .ok (some m)
      | .ok none => subsByLine whole ref line (n + 1) xs

/-- The loops of lookup.py:98-107 and 140-149. -/
def subsByIndex (whole : Ref) (ref : Nat → Ref) (index : Nat) : Nat → List Sub → Except PyExc (Option Hit)
  | _, [] => .ok none
  | n, x :: xs =>
    if index < x.span.1 then .ok (some ⟨whole, none⟩)
    else if index ≤ x.span.2 then .ok (some ⟨ref n, some x.toBase⟩)
    else
      match checkFieldByIndex (ref n) x.toBase x.continuations index with
      | .error e => .error e
      | .ok (some m) => .ok (some m)
      | .ok none => subsByIndex whole ref index (n + 1) xs

/-- lookup.py:67-86 (fieldsets, `subs` are the entries) and 109-128 (lists, `subs` are the items) -/
def checkSubsByLine (whole : Ref) (ref : Nat → Ref) (b : Base) (subs : Option (List Sub)) (line : Nat) : Except PyExc (Option Hit) :=
  if line < b.line then .ok none
  else if line = b.line then .ok (some ⟨whole, some b⟩)
  else
    match subs with
    | none => .ok none
    | some xs =>
      match xs.getLast? with
      | none => .error .indexError
      | some l => if line > l.line then .ok none else subsByLine whole ref line 0 xs

/-- lookup.py:88-107 and 130-149 -/
def checkSubsByIndex (whole : Ref) (ref : Nat → Ref) (b : Base) (subs : Option (List Sub)) (index : Nat) : Except PyExc (Option Hit) :=
  if index < b.span.1 then .ok none
  else if index ≤ b.span.2 then .ok (some ⟨whole, some b⟩)
  else
    match subs with
    | none => .ok none
    | some xs =>
      match xs.getLast? with
      | none => .error .indexError
      | some l => if index > l.span.2 then .ok none else subsByIndex whole ref index 0 xs

/-- `if match: return match` … `break`; the section is returned after the loop (lookup.py:179-181, 211-213). -/
def orSection (s : Nat) : Except PyExc (Option Hit) → Except PyExc Hit
  | .error e => .error e
  | .ok (some m) => .ok m
  | .ok none => .ok ⟨.elem s, none⟩

/-- The loop of lookup.py:152-181; `inner` is the recursive call. -/
def sectionByLine (h : Heap) (s line : Nat) (inner : Nat → Except PyExc Hit) : List Nat → Except PyExc Hit
  | [] => .ok ⟨.elem s, none⟩
  | i :: is =>
    if (h.at i).line > line then sectionByLine h s line inner is
    else if (h.at i).line = line then .ok ⟨.elem i, some (h.at i).toBase⟩
    else
      match (h.at i).type with
      | .field => orSection s (checkFieldByLine (.elem i) (h.at i).toBase (h.at i).continuations line)
      | .fieldset => orSection s (checkSubsByLine (.elem i) (.entry i) (h.at i).toBase (h.at i).entries line)
      | .list => orSection s (checkSubsByLine (.elem i) (.item i) (h.at i).toBase (h.at i).items line)
      | .mlBegin => if (h.at i).template = none then orSection s (checkMultilineByLine (.elem i) (h.at i) line) else .ok ⟨.elem s, none⟩
      | .section => inner i
      | _ => .ok ⟨.elem s, none⟩

/-- The loop of lookup.py:184-213. -/
def sectionByIndex (h : Heap) (s index : Nat) (inner : Nat → Except PyExc Hit) : List Nat → Except PyExc Hit
  | [] => .ok ⟨.elem s, none⟩
  | i :: is =>
    if index < (h.at i).span.1 then sectionByIndex h s index inner is
    else if index ≤ (h.at i).span.2 then .ok ⟨.elem i, some (h.at i).toBase⟩
    else
      match (h.at i).type with
      | .field => orSection s (checkFieldByIndex (.elem i) (h.at i).toBase (h.at i).continuations index)
      | .fieldset => orSection s (checkSubsByIndex (.elem i) (.entry i) (h.at i).toBase (h.at i).entries index)
      | .list => orSection s (checkSubsByIndex (.elem i) (.item i) (h.at i).toBase (h.at i).items index)
      | .mlBegin => if (h.at i).template = none then orSection s (checkMultilineByIndex (.elem i) (h.at i) index) else .ok ⟨.elem s, none⟩
      | .section => inner i
      | _ => .ok ⟨.elem s, none⟩

/-- lookup.py:151-181; the first argument is fuel. -/
def checkInSectionByLine (h : Heap) (line : Nat) : Nat → Nat → Except PyExc Hit
  | 0, _ => .error .recursionError
  | n + 1, s => sectionByLine h s line (checkInSectionByLine h line n) (h.at s).elements.reverse

/-- lookup.py:183-213; the first argument is fuel. -/
def checkInSectionByIndex (h : Heap) (index : Nat) : Nat → Nat → Except PyExc Hit
  | 0, _ => .error .recursionError
  | n + 1, s => sectionByIndex h s index (checkInSectionByIndex h index n) (h.at s).elements.reverse

/-- The loop of lookup.py:249-256: the name found so far and `rightmost_match`. -/
def rangeLoop (index : Int) : Ranges → Option RangeName → Int → Option RangeName
  | [], found, _ => found
  | (n, r) :: rs, found, rightmost =>
    if n = .line then rangeLoop index rs found rightmost
    else if index ≥ r.1 ∧ index ≤ r.2 ∧ (r.1 : Int) ≥ rightmost then rangeLoop index rs (some n) index
    else rangeLoop index rs found rightmost

/-- What `lookup` returns: the element is wrapped in an `Element`, which stores it and nothing else (element_base.py:5-8; `El.World.found`). -/
structure LookupResult where
  element : Ref
  range : Option RangeName
deriving DecidableEq, Repr

/-- Everything `lookup` can raise. -/
inductive LExc where
  | parse (e : PExc)
  | py (e : PyExc)
deriving DecidableEq, Repr

/-- lookup.py:216-258. An argument that is not given is `None`; comparing `None` with a number or adding it is a `TypeError`. -/
def lookup (input : Str) (line column index : Option Int) : Except LExc LookupResult :=
  match load input with
  | .error e => .error (.parse e)
  | .ok ctx =>
    let found : Except PyExc Hit :=
      match index with
      | none =>                                                                       -- :220-224
        match line with
        | none => .error .typeError
        | some l =>
          if l < 0 ∨ l ≥ ctx.lineCount then .error .indexError
          else checkInSectionByLine ctx.heap l.toNat (ctx.heap.length + 1) 0
      | some i =>                                                                     -- :225-229
        if i < 0 ∨ i > input.length then .error .indexError
        else checkInSectionByIndex ctx.heap i.toNat (ctx.heap.length + 1) 0
    match found with
    | .error e => .error (.py e)
    | .ok m =>
      let instruction :=                                                              -- :236-239
        match m.instruction with
        | some b => some b
        | none => (ctx.metas.find? fun (x : Meta) => some (x.base.line : Int) = line).map Meta.base
      match instruction with
      | none => .ok ⟨m.element, none⟩                                                 -- :241-242
      | some b =>
        match index, column with                                                      -- :246-247
        | some i, _ => .ok ⟨m.element, rangeLoop i b.ranges none b.span.1⟩
        | none, some c => .ok ⟨m.element, rangeLoop (b.span.1 + c) b.ranges none b.span.1⟩
        | none, none => .error (.py .typeError)

end Eno
