import Verif.Analyzer

/-!
# `/repo/python/enolib/resolver.py`

Elements are referred to by heap position, so `element in previous_elements` (resolver.py:89, 102) is membership of positions: two
distinct elements never compare equal as dictionaries because their `line` differs (`C09_ordered`).
`element['copy']` refers to an entry of a copy dictionary by its name.
-/

namespace Eno

/-- Python exceptions that are not raised on purpose. `recursionError` stands for running out of fuel. -/
inductive PyExc where
  | keyError | indexError | typeError | attributeError | unboundLocalError | recursionError
deriving DecidableEq, Repr

/-- The `ParseError` kinds raised while resolving — `/repo/python/enolib/errors/parsing.py`. -/
inductive RFail where
  | cyclicDependency (copy : Nat) (chain : List Nat)
  | missingListForListItem (item : Sub)
  | missingFieldsetForFieldsetEntry (entry : Sub)
  | nonSectionElementNotFound (copy : Nat)
  | sectionNotFound (copy : Nat)
  | twoOrMoreTemplatesFound (copy first second : Nat)
deriving DecidableEq, Repr

/-- How resolving can end abnormally; a `ParseError` comes with the heap at that time. -/
inductive RExc where
  | parse (kind : RFail) (heap : Heap)
  | py (e : PyExc)
deriving DecidableEq, Repr

/-- `d[key]` -/
def Copies.get? (d : Copies) (k : Str) : Option CopyData := List.lookup k d

/-- `d[key]['template'] = i` for an existing key. -/
def Copies.setTemplate : Copies → Str → Nat → Copies
  | [], _, _ => []
  | (k, c) :: t, key, i => if k = key then (k, { c with template := some i }) :: t else (k, c) :: Copies.setTemplate t key i

/-- resolver.py:82-86 -/
def mirrorTo (h : Heap) (element template : Nat) : Heap :=
  match (h.at template).mirror with
  | some m => h.modify element fun e => { e with mirror := some m }
  | none => h.modify element fun e => { e with mirror := some template }

/-- resolver.py:13-14, 45-46 -/
def inheritComments (h : Heap) (element template : Nat) : Heap :=
  if (h.at template).comments.isSome ∧ (h.at element).comments = none then
    h.modify element fun e => { e with comments := (h.at template).comments }
  else h

/-- `element['type'] = t` -/
def setType (h : Heap) (element : Nat) (t : Ty) : Heap := h.modify element fun e => { e with type := t }

/-- resolver.py:11-42 -/
def consolidateNonSection (h : Heap) (element template : Nat) : Except RExc Heap :=
  let h := inheritComments h element template
  let t := (h.at template).type
  if (h.at element).type = .empty then                                                -- :16-28
    if t = .mlBegin then .ok (mirrorTo (setType h element .field) element template)
    else if t = .field then .ok (mirrorTo (setType h element .field) element template)
    else if t = .fieldset then .ok (mirrorTo (setType h element .fieldset) element template)
    else if t = .list then .ok (mirrorTo (setType h element .list) element template)
    else .ok h
  else if (h.at element).type = .fieldset then                                        -- :29-35
    if t = .fieldset then .ok (h.modify element fun e => { e with extend := some template })
    else if t = .field ∨ t = .list ∨ t = .mlBegin then
      match (h.at element).entries with
      | none => .error (.py .keyError)
      | some [] => .error (.py .indexError)
      | some (x :: _) => .error (.parse (.missingFieldsetForFieldsetEntry x) h)
    else .ok h
  else if (h.at element).type = .list then                                            -- :36-42
    if t = .list then .ok (h.modify element fun e => { e with extend := some template })
    else if t = .field ∨ t = .fieldset ∨ t = .mlBegin then
      match (h.at element).items with
      | none => .error (.py .keyError)
      | some [] => .error (.py .indexError)
      | some (x :: _) => .error (.parse (.missingListForListItem x) h)
    else .ok h
  else .ok h

/-- An entry of `merge_map` — resolver.py:58-64: `False`, or a section with possibly a template. -/
inductive Merger where
  | no
  | yes (section_ : Nat) (template : Option Nat)
deriving DecidableEq, Repr

/-- `merge_map[key] = value` -/
def mapSet (m : List (Str × Merger)) (k : Str) (v : Merger) : List (Str × Merger) :=
  match m with
  | [] => [(k, v)]
  | (k', v') :: t => if k' = k then (k', v) :: t else (k', v') :: mapSet t k v

/-- resolver.py:60-64 -/
def mergeOwn (h : Heap) (els : List Nat) : List (Str × Merger) :=
  els.foldl (fun m i =>
    if (h.at i).type ≠ .section ∨ (List.lookup (h.at i).key m).isSome then mapSet m (h.at i).key .no
    else mapSet m (h.at i).key (.yes i none)) []

/-- resolver.py:66-76 -/
def mergeTemplate (h : Heap) (els : List Nat) (m : List (Str × Merger)) : List (Str × Merger) :=
  els.foldl (fun m i =>
    match List.lookup (h.at i).key m with
    | none => m
    | some .no => m
    | some (.yes s t) =>
      if (h.at i).type ≠ .section ∨ t.isSome then mapSet m (h.at i).key .no
      else mapSet m (h.at i).key (.yes s (some i))) m

/-- resolver.py:44-80; the first argument is fuel. -/
def consolidateSections : Nat → Heap → Nat → Nat → Bool → Except PyExc Heap
  | 0, _, _, _, _ => .error .recursionError
  | n + 1, h, sec, template, deep =>
    let h := inheritComments h sec template
    if (h.at sec).elements = [] then .ok (mirrorTo h sec template)                    -- :48-49
    else
      let h : Heap := h.modify sec fun e => { e with extend := some template }        -- :53
      if deep = false then .ok h                                                      -- :55-56
      else
        let m := mergeTemplate h (h.at template).elements (mergeOwn h (h.at sec).elements)
        m.foldlM (fun h kv =>                                                         -- :78-80
          match kv.2 with
          | .yes s (some t) => consolidateSections n h s t true
          | _ => .ok h) h

/-- errors/parsing.py:10-17 — which instruction a cyclic dependency is reported at. -/
def cyclicDependency (h : Heap) (element : Nat) (chain : List Nat) : RExc :=
  let feedback := chain.dropWhile (· ≠ element)
  match feedback.getLast?, feedback.head? with
  | some l, some f =>
    if (h.at l).template.isSome then .parse (.cyclicDependency l feedback) h
    else if (h.at f).template.isSome then .parse (.cyclicDependency f feedback) h
    else .py .unboundLocalError
  | _, _ => .py .indexError

/-- `element['copy']['template']`; both keys may be missing. -/
def templateOf (d : Copies) (e : Elem) : Option Nat := e.copy.bind fun k => (d.get? k).bind (·.template)

/-- `'copy' in element or 'deep_resolve' in element` -/
def Elem.pending (e : Elem) : Bool := e.copy.isSome || e.deepResolve

/-- resolver.py:88-99; the first argument is fuel. -/
def resolveNonSection (d : Copies) : Nat → Heap → Nat → List Nat → Except RExc Heap
  | 0, _, _, _ => .error (.py .recursionError)
  | n + 1, h, e, prev =>
    if e ∈ prev then .error (cyclicDependency h e prev)
    else
      match templateOf d (h.at e) with
      | none => .error (.py .keyError)                                                -- :92
      | some t =>
        match (if (h.at t).copy.isSome then resolveNonSection d n h t (prev ++ [e]) else .ok h) with   -- :94-95
        | .error x => .error x
        | .ok h =>
          match consolidateNonSection h e t with                                      -- :97
          | .error x => .error x
          | .ok h => .ok (h.modify e fun x => { x with copy := none })                -- :99

/-- resolver.py:101-120; the first argument is fuel. -/
def resolveSection (d : Copies) : Nat → Heap → Nat → List Nat → Except RExc Heap
  | 0, _, _, _ => .error (.py .recursionError)
  | n + 1, h, s, prev =>
    if s ∈ prev then .error (cyclicDependency h s prev)                               -- :102-103
    else
      match
        (if (h.at s).deepResolve then                                                 -- :105-110
          match (h.at s).elements.foldlM (fun h c =>
              if (h.at c).type = .section ∧ (h.at c).pending then resolveSection d n h c (prev ++ [s]) else .ok h) h with
          | .error x => .error x
          | .ok h => .ok (h.modify s fun x => { x with deepResolve := false })
        else .ok h : Except RExc Heap) with
      | .error x => .error x
      | .ok h =>
        if (h.at s).copy.isSome then                                                  -- :112-120
          match templateOf d (h.at s) with
          | none => .error (.py .keyError)
          | some t =>
            match (if (h.at t).pending then resolveSection d n h t (prev ++ [s]) else .ok h) with
            | .error x => .error x
            | .ok h =>
              match consolidateSections (h.length + 1) h s t (h.at s).deepCopy with
              | .error x => .error (.py x)
              | .ok h => .ok (h.modify s fun x => { x with copy := none })
        else .ok h

/-- resolver.py:127-135, 136-144 — an element becomes the template of the copies that name its key, unless it is itself a copy of
that key. -/
def register (h : Heap) (d : Copies) (i : Nat) : Except RExc Copies :=
  match d.get? (h.at i).key with
  | none => .ok d
  | some c =>
    if (h.at i).template = some (h.at i).key then .ok d
    else
      match c.template with
      | some t =>
        match c.targets with
        | [] => .error (.py .indexError)
        | copy :: _ => .error (.parse (.twoOrMoreTemplatesFound copy t i) h)
      | none => .ok (d.setTemplate (h.at i).key i)

/-- resolver.py:122-144; the first argument is fuel. The two dictionaries are (sections, non-section elements). -/
def indexSection (h : Heap) : Nat → Nat → Copies × Copies → Except RExc (Copies × Copies)
  | 0, _, _ => .error (.py .recursionError)
  | n + 1, s, d =>
    (h.at s).elements.foldlM (fun d i =>
      if (h.at i).type = .section then
        match indexSection h n i d with
        | .error x => .error x
        | .ok d =>
          match register h d.1 i with
          | .error x => .error x
          | .ok c => .ok (c, d.2)
      else
        match register h d.2 i with
        | .error x => .error x
        | .ok c => .ok (d.1, c)) d

/-- The loops of resolver.py:150-156 and 161-167. -/
def resolveAll (notFound : Nat → RFail) (one : Heap → Nat → Except RExc Heap) (d : Copies) (h : Heap) : Except RExc Heap :=
  d.foldlM (fun h kc =>
    match kc.2.template with
    | none =>
      match kc.2.targets with
      | [] => .error (.py .indexError)
      | copy :: _ => .error (.parse (notFound copy) h)
    | some _ => kc.2.targets.foldlM (fun h i => if (h.at i).copy.isSome then one h i else .ok h) h) h

/-- resolver.py:146-169. The copy dictionaries are deleted at the end. -/
def resolve (ctx : Ctx) : Except RExc Ctx :=
  match indexSection ctx.heap (ctx.heap.length + 1) 0 (ctx.copySections, ctx.copyNonSections) with
  | .error x => .error x
  | .ok (ds, dn) =>
    match resolveAll .nonSectionElementNotFound (fun h i => resolveNonSection dn (h.length + 1) h i []) dn ctx.heap with
    | .error x => .error x
    | .ok h =>
      match resolveAll .sectionNotFound (fun h i => resolveSection ds (h.length + 1) h i []) ds h with
      | .error x => .error x
      | .ok h => .ok { ctx with heap := h, copySections := [], copyNonSections := [] }

/-- Everything `Context.__init__` can raise. -/
inductive PExc where
  | analysis (e : AExc)
  | resolution (e : RExc)
deriving DecidableEq, Repr

/-- context.py:9-18 -/
def load (input : Str) : Except PExc Ctx :=
  match analyze input with
  | .error e => .error (.analysis e)
  | .ok ctx =>
    if ctx.copySections ≠ [] ∨ ctx.copyNonSections ≠ [] then
      match resolve ctx with
      | .error e => .error (.resolution e)
      | .ok ctx => .ok ctx
    else .ok ctx

end Eno
