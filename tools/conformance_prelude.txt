import Verif.Register
import Verif.Shown
import Verif.Lookup
import Verif.PyTexts

/-! An interpreter for the statements and expressions that occur in the project's tests, on top of the model. Not part of the development: see `conformance.py`. -/

open Eno Eno.El

inductive Ex where
  | none | bool (b : Bool) | int (n : Int) | str (s : String) | list (xs : List Ex) | dict (xs : List (String × Ex)) | var (x : String)
  | method (recv : Ex) (name : String) (args : List Ex) | fn (name : String) (args : List Ex) | attr (e : Ex) (name : String) | sub (e i : Ex)
  | lam (params : List String) (body : Ex) | fstr (parts : List Ex) | comp (elt : Ex) (x : String) (iter : Ex) | eq (a b : Ex) | not (a : Ex)
deriving Inhabited

inductive Stm where
  | assign (x : String) (e : Ex) | expr (e : Ex) | raise (e : Ex) | assert (e : Ex) | attempt (body : List Stm) (kind x : String) (handler : List Stm)
  | expect (kind x : String) (body : List Stm) | each (x : String) (iter : Ex) (body : List Stm) | define (name : String) (params : List String) (body : List Stm)
  | branch (cond : Ex) (yes no : List Stm) | pass
deriving Inhabited

inductive D where
  | none | bool (b : Bool) | int (n : Int) | str (s : Str) | list (xs : List D) | dict (xs : List (String × D)) | obj (doc : Nat) (v : Val)
  | err (kind : String) (e : ErrObj) | exc (kind : String) (message : Str) | fn (params : List String) (body : List Stm) (env : List (String × D))
  | cls (name : String)
instance : Inhabited D := ⟨.none⟩

partial def D.show : D → String
  | .none => "None" | .bool b => toString b | .int n => toString n | .str s => reprStr (String.ofList s) | .list xs => "[" ++ ", ".intercalate (xs.map D.show) ++ "]"
  | .dict xs => "{" ++ ", ".intercalate ((xs.mergeSort fun a b => decide (a.1 ≤ b.1)).map fun p => p.1 ++ ": " ++ p.2.show) ++ "}"
  | .obj d (.obj o) => s!"object {d} {o}" | .obj d _ => s!"missing {d}" | .err k e => s!"{k} {repr e}" | .exc k m => s!"{k} {String.ofList m}" | .fn .. => "function"
  | .cls n => "class " ++ n

structure S where
  docs : List (Env × World) := []
  registry : Registry D := []
inductive Exn where
  | raised (d : D) | failed (s : String) | unsupported (s : String)
abbrev M := ExceptT Exn (StateM S)

def rangeName : RangeName → String
  | .line => "line" | .elementOperator => "element_operator" | .escapeBeginOperator => "escape_begin_operator" | .escapeEndOperator => "escape_end_operator"
  | .key => "key" | .value => "value" | .itemOperator => "item_operator" | .entryOperator => "entry_operator"
  | .spacedLineContinuationOperator => "spaced_line_continuation_operator" | .directLineContinuationOperator => "direct_line_continuation_operator"
  | .sectionOperator => "section_operator" | .template => "template" | .deepCopyOperator => "deep_copy_operator" | .copyOperator => "copy_operator"
  | .multilineFieldOperator => "multiline_field_operator" | .commentOperator => "comment_operator" | .comment => "comment"

def optD : Option Str → D | some s => .str s | Option.none => .none

/-- The dictionary of `raw` -/
partial def pyD : Py → D
  | .none => .none | .text s => .str s | .list xs => .list (xs.map pyD) | .dict ps => .dict (ps.map fun p => (String.ofList p.1, pyD p.2))

partial def valD (d : Nat) : Val → D
  | .none => .none | .bool b => .bool b | .nat n => .int n | .text s => .str s | .raw x => pyD x.dict | .error e => .err "ValidationError" e
  | .list xs => .list (xs.map (valD d)) | v => .obj d v

def unsupported {α} (s : String) : M α := throw (.unsupported s)
def pyName : PyExc → String
  | .keyError => "KeyError" | .indexError => "IndexError" | .typeError => "TypeError" | .attributeError => "AttributeError" | .unboundLocalError => "UnboundLocalError"
  | .recursionError => "RecursionError"
def raisePy {α} (e : PyExc) : M α := throw (.raised (.exc (pyName e) []))
def excD : Exc → D
  | .validation e => .err "ValidationError" e | .py e => .exc (pyName e) [] | .valueError m => .exc "ValueError" m
def D.toExc : D → Exc
  | .err _ e => .validation e | .exc "ValueError" m => .valueError m | _ => .py .typeError

/-- Run in a document. -/
def inDoc {α} (d : Nat) (f : Env → Api α) : M α := do
  let st ← get
  match st.docs[d]? with
  | none => unsupported "document"
  | some (E, w) =>
    let (r, w) := f E w
    set { st with docs := st.docs.set d (E, w) }
    match r with
    | .ok v => pure v
    | .error x => throw (.raised (excD x))

/-- Run a function of the test when a method calls it. -/
def inApi {α} (d : Nat) (m : M D) (st : S) (conv : D → Option α) : Api α := fun w =>
  let st := { st with docs := match st.docs[d]? with | some (E, _) => st.docs.set d (E, w) | none => st.docs }
  let (r, st) := (m.run).run st
  let w := match st.docs[d]? with | some (_, w) => w | none => w
  match r with
  | .ok v => match conv v with | some v => (.ok v, w) | none => (.error (.py .typeError), w)
  | .error (.raised x) => (.error x.toExc, w)
  | .error _ => (.error (.py .unboundLocalError), w)

def D.toVal : D → Option Val
  | .str s => some (.text s) | .none => some .none | .bool b => some (.bool b) | .obj _ v => some v | .err _ e => some (.error e) | _ => Option.none
def D.text? : D → Option Str | .str s => some s | _ => Option.none

def same : D → D → Bool := fun a b => a.show == b.show

abbrev Vars := List (String × D)

def toldD (kind : String) (e : ErrObj) (name : String) : M D := do
  let _ := kind
  match e.told .en with
  | none => raisePy .attributeError
  | some t =>
    let c := fun (c : Cursor) => D.dict [("column", .int c.column), ("index", .int c.index), ("line", .int c.line)]
    match name with
    | "text" => pure (.str t.text) | "snippet" => pure (.str t.snippet) | "message" => pure (.str t.message) | "cursor" => pure (c t.cursor)
    | "selection" => pure (.dict [("from", c t.selection.start), ("to", c t.selection.stop)])
    | n => unsupported ("attribute " ++ n)

def newDoc (E : Env) (w : World) : M Nat := do
  let st ← get
  set { st with docs := st.docs ++ [(E, w)] }
  pure st.docs.length

def parseD (r : Reporter) (input : Str) : M D := do
  let o := Locale.en.options r none
  match parse o input with
  | .ok ctx => pure (.obj (← newDoc ⟨o, ctx, 1000⟩ World.start) (.obj 0))
  | .error (.parseError e) => throw (.raised (.err "ParseError" e))
  | .error (.validationError e) => throw (.raised (.err "ValidationError" e))
  | .error (.py e) => raisePy e

def lookupD (input : Str) (line column index : Option Int) : M D := do
  match lookup input line column index, load input with
  | .ok r, .ok ctx =>
    let d ← newDoc ⟨Locale.en.options .text none, ctx, 1000⟩ (World.found r.element)
    pure (.dict [("element", .obj d (.obj 0)), ("range", match r.range with | some n => .str (rangeName n).toList | none => .none)])
  | .error (.py e), _ => throw (.raised (.exc (pyName e) ((lookupText input line index).getD [])))
  | _, _ => unsupported "lookup of a document with errors"

def kinds : List (String × Want) :=
  [("element", .any), ("empty", .kind .empty), ("field", .kind .field), ("fieldset", .kind .fieldset), ("list", .kind .list), ("section", .kind .section)]

/-- The methods without functions by name. -/
def plainMethod (name : String) (args : List D) : Option Method :=
  let key : Option (Option Str) := match args with | [] => some none | [.none] => some none | [.str k] => some (some k) | _ => Option.none
  let flag : Option Bool := match args with | [] => some true | [.bool b] => some b | _ => Option.none
  let one := kinds.findSome? fun (n, w) =>
    if name = n then key.map (Method.one w · none) else if name = "optional_" ++ n then key.map (Method.one w · (some false))
    else if name = "required_" ++ n then key.map (Method.one w · (some true)) else if name = n ++ "s" then key.map (Method.many w ·) else none
  match one with
  | some m => some m
  | none =>
    match name with
    | "raw" => some .raw | "touch" => some .touch | "items" => some .items | "length" => some .length | "parent" => some .parent
    | "entries" => key.map .entries | "entry" => key.map (.entry · none) | "optional_entry" => key.map (.entry · (some false))
    | "required_entry" => key.map (.entry · (some true))
    | "all_elements_required" => flag.map .allElementsRequired | "all_entries_required" => flag.map .allEntriesRequired
    | "to_field" => some (.to .field) | "to_list" => some (.to .list) | "to_fieldset" => some (.to .fieldset) | "to_section" => some (.to .section)
    | "to_empty" => some (.to .empty)
    | _ => Option.none

mutual
partial def eval (env : Vars) : Ex → M D
  | .none => pure .none | .bool b => pure (.bool b) | .int n => pure (.int n) | .str s => pure (.str s.toList)
  | .list xs => do pure (.list (← xs.mapM (eval env)))
  | .dict xs => do pure (.dict (← xs.mapM fun p => do pure (p.1, ← eval env p.2)))
  | .var x => match env.lookup x with | some d => pure d | none => pure (.cls x)
  | .lam ps body => pure (.fn ps [.expr body] env)
  | .fstr parts => do
    let vs ← parts.mapM (eval env)
    pure (.str (← vs.mapM fun v => match v with | .str s => pure s | v => pure v.show.toList).flatten)
  | .comp elt x iter => do
    match ← eval env iter with
    | .list vs => do pure (.list (← vs.mapM fun v => eval ((x, v) :: env) elt))
    | _ => unsupported "iteration"
  | .eq a b => do pure (.bool (same (← eval env a) (← eval env b)))
  | .not a => do
    match ← eval env a with
    | .bool b => pure (.bool (!b))
    | _ => unsupported "not"
  | .sub e i => do
    match ← eval env e, ← eval env i with
    | .list xs, .int n => match xs[n.toNat]? with | some x => pure x | none => raisePy .indexError
    | .dict xs, .str s => match xs.lookup (String.ofList s) with | some x => pure x | none => raisePy .keyError
    | _, _ => unsupported "subscript"
  | .attr e name => do
    match ← eval env e, name with
    | .err k e, n => toldD k e n
    | .dict xs, n => match xs.lookup n with | some x => pure x | none => raisePy .attributeError
    | .obj d (.obj o), "_all_elements_required" => do pure (.bool (← inDoc d fun _ => obj o).required)
    | .obj d (.obj o), "_all_entries_required" => do pure (.bool (← inDoc d fun _ => obj o).required)
    | .cls _, n => pure (.cls n)
    | _, n => unsupported ("attribute " ++ n)
  | .fn name args => do
    let vs ← args.mapM (eval env)
    match name, vs with
    | "repr", [.obj d v] => valD d <$> call d v .repr
    | "bool", [.str s] => pure (.bool (s ≠ []))
    | "len", [.list xs] => pure (.int xs.length)
    | "str", [.exc _ m] => pure (.str m)
    | "str", [.err k e] => toldD k e "message"
    | "str", [.str s] => pure (.str s)
    | "type", [.err k _] => pure (.cls k)
    | "type", [.exc k _] => pure (.cls k)
    | "isinstance", [.err k _, .cls c] => pure (.bool (k == c))
    | "hasattr", [.obj d (.obj o), .str s] => if s = "_touched".toList then do pure (.bool (← inDoc d fun _ => obj o).touched) else unsupported "hasattr"
    | "ValueError", [.str s] => pure (.exc "ValueError" s)
    | "parse", [.str s] => parseD .text s
    | "parse", [.str s, .cls "HtmlReporter"] => parseD .html s
    | "parse", [.str s, .cls "TerminalReporter"] => parseD .terminal s
    | "lookup index", [.str s, .int i] => lookupD s none none (some i)
    | "lookup line", [.str s, .int l, .int c] => lookupD s (some l) (some c) none
    | "register", [.str n, f] => do
      modify fun st => { st with registry := register st.registry { named := [(n, f)] } }
      pure .none
    | "report first element", [.obj d _] => do
      let some (E, _) := (← get).docs[d]? | unsupported "document"
      match ((E.ctx.heap.at 0).elements : List Nat) with
      | i :: _ =>
        match makeSnippet E.o E.ctx (reportElement E.ctx.heap (.elem i)) with
        | .ok s => pure (.str s)
        | .error e => raisePy e
      | [] => unsupported "no element"
    | n, _ => unsupported ("function " ++ n)
  | .method recv name args => do
    match ← eval env recv with
    | .str s =>
      match name with
      | "upper" => pure (.str (s.map Char.toUpper))
      | n => unsupported ("string method " ++ n)
    | .obj d v => do
      let vs ← args.mapM (eval env)
      let st ← get
      let loader (f : D) : Loader := fun s => inApi d (apply f [.str s]) st D.toVal
      let message {α} (conv : α → D) : Option (MsgArg α) :=
        match vs with
        | [.str s] => some (.text s)
        | [f@(.fn ..)] => some (.fn fun a => inApi d (apply f [conv a]) st D.text?)
        | _ => Option.none
      match plainMethod name vs with
      | some m => valD d <$> call d v m
      | none =>
        let m : Option Method :=
          match name, vs with
          | "assert_all_touched", [] => some (.assertAllTouched none [] [])
          | "assert_all_touched", _ => (message fun o => .obj d (.obj o)).map fun m => .assertAllTouched (some m) [] []
          | "error", _ => (message fun o => .obj d (.obj o)).map .error
          | "key_error", _ => (message D.str).map .keyError
          | "value_error", _ => (message optD).map .valueError
          | "comment_error", _ => (message optD).map .commentError
          | "key", [f] => some (.key (loader f))
          | "required_value", [f] => some (.value true (loader f))
          | "optional_value", [f] => some (.value false (loader f))
          | "required_values", [f] => some (.values true (loader f))
          | "optional_values", [f] => some (.values false (loader f))
          | "required_comment", [f] => some (.comment true (loader f))
          | "optional_comment", [f] => some (.comment false (loader f))
          | _, _ => none
        match m with
        | some m => valD d <$> call d v m
        | none =>
          if vs.isEmpty then
            match v with
            | .obj o => valD d <$> inDoc d fun E => invoke E loader st.registry o name.toList
            | .missing x => valD d <$> inDoc d fun E => invokeMissing E loader st.registry x name.toList
            | _ => unsupported "method"
          else unsupported ("method " ++ name)
    | _ => unsupported ("method " ++ name)
partial def call (d : Nat) (v : Val) (m : Method) : M Val :=
  match v with
  | .obj o => inDoc d fun E => run E o m
  | .missing x => inDoc d fun E => runMissing E x m
  | _ => unsupported "call"
partial def apply (f : D) (args : List D) : M D :=
  match f with
  | .fn ps [.expr body] env => eval (ps.zip args ++ env) body
  | .fn ps body env => do
    let _ ← execute (ps.zip args ++ env) body
    pure .none
  | _ => unsupported "application"
partial def execute (env : Vars) : List Stm → M Vars
  | [] => pure env
  | s :: rest => do
    let env ← step env s
    execute env rest
partial def step (env : Vars) : Stm → M Vars
  | .pass => pure env
  | .assign x e => do pure ((x, ← eval env e) :: env)
  | .expr e => do let _ ← eval env e; pure env
  | .raise e => do throw (.raised (← eval env e))
  | .assert e => do
    match ← eval env e with
    | .bool true => pure env
    | .bool false =>
      match e with
      | .eq a b => throw (.failed s!"{(← eval env a).show} vs {(← eval env b).show}")
      | _ => throw (.failed "assert")
    | .none => throw (.failed "assert None")
    | _ => pure env
  | .attempt body kind x handler => do
    try execute env body
    catch
      | .raised d =>
        match d with
        | .err k _ => if k = kind then execute ((x, d) :: env) handler else throw (.raised d)
        | d => throw (.raised d)
      | e => throw e
  | .expect kind x body => do
    let r ← try (do let _ ← execute env body; pure (none : Option D))
      catch
        | .raised d =>
          match d with
          | .err k _ => if k = kind then pure (some d) else throw (.raised d)
          | .exc k _ => if k = kind then pure (some d) else throw (.raised d)
          | d => throw (.raised d)
        | e => throw e
    match r with
    | some d => pure ((x, .dict [("value", d)]) :: env)
    | none => throw (.failed ("did not raise " ++ kind))
  | .each x iter body => do
    match ← eval env iter with
    | .list vs => do
      for v in vs do
        let _ ← execute ((x, v) :: env) body
      pure env
    | _ => unsupported "iteration"
  | .define name ps body => pure ((name, .fn ps body env) :: env)
  | .branch c yes no => do
    match ← eval env c with
    | .bool true => execute env yes
    | .bool false => execute env no
    | _ => unsupported "condition"
end

def verdictOf (r : Except Exn Vars) : String :=
  match r with
  | .ok _ => "ok"
  | .error (.raised d) => "raised " ++ d.show
  | .error (.failed s) => "failed: " ++ s
  | .error (.unsupported s) => "unsupported: " ++ s

/-- Run the tests of a file: first the statements of the module, then each test after the other. -/
def runFile (file : String) (module : List Stm) (tests : List (String × List Stm)) : IO Unit := do
  let (r, st) := ((execute [] module).run).run {}
  match r with
  | .error _ => IO.println s!"{file}: {verdictOf r}"
  | .ok env =>
    let mut st := st
    let mut n := 0
    for (name, body) in tests do
      let (r, st') := ((execute env body).run).run st
      st := st'
      if verdictOf r = "ok" then n := n + 1 else IO.println s!"{file} {name}: {verdictOf r}"
    IO.println s!"{file}: {n} of {tests.length}"

/-- A scenario of tests/patterns: the groups that match, or none. -/
def scenario (syntax_ : String) (variants : List String) (captures : Option (List (Nat × String))) : IO Unit := do
  for v in variants do
    let m := Re.matchAt Grammar.REGEX 0 v.toList
    let got : Option (List (Nat × String)) := m.map fun st => (List.range 29).filterMap fun n => (st.caps n).map fun c => (n, String.ofList c.text)
    unless got == captures do
      IO.println s!"pattern {syntax_} {reprStr v}: {reprStr got}"

def tyName : Ty → String
  | .comment => "Comment" | .continuation => "Continuation" | .document => "Document" | .empty => "Empty Element" | .field => "Field" | .fieldset => "Fieldset"
  | .fieldsetEntry => "Fieldset Entry" | .list => "List" | .listItem => "List Item" | .mlBegin => "Multiline Field Begin" | .mlEnd => "Multiline Field End"
  | .mlValue => "Multiline Field Value" | .section => "Section" | .unparsed => "Unparsed"

def baseD (b : Base) : List (String × D) :=
  [("line", .int b.line), ("ranges", .dict (b.ranges.map fun (n, p) => (rangeName n, .list [.int p.1, .int p.2])))]
def opt {α} (name : String) (f : α → D) (x : Option α) : List (String × D) := (x.map fun x => (name, f x)).toList
def typeD (t : Ty) : String × D := ("type", .str (tyName t).toList)
def commentD (c : Comment) : D := .dict (baseD c.toBase ++ [typeD .comment] ++ opt "comment" .str c.comment)
def contD (c : Cont) : D :=
  .dict (baseD c.toBase ++ [typeD .continuation] ++ opt "value" .str c.value ++ (if c.spaced then [("spaced", .bool true)] else []))
def subD (x : Sub) : D :=
  .dict (baseD x.toBase ++ [typeD (if x.isEntry then .fieldsetEntry else .listItem)] ++ opt "key" .str x.key ++ opt "value" .str x.value
    ++ opt "comments" (fun cs => .list (cs.map commentD)) x.comments ++ opt "continuations" (fun cs => .list (cs.map contD)) x.continuations)
partial def elemD (h : Heap) (i : Nat) : D :=
  let e := h.at i
  .dict ((if e.type = .document then [] else baseD e.toBase ++ [("key", .str e.key)]) ++ [typeD e.type] ++ opt "value" .str e.value ++ opt "template" .str e.template
    ++ opt "comments" (fun cs => .list (cs.map commentD)) e.comments ++ opt "continuations" (fun cs => .list (cs.map contD)) e.continuations
    ++ opt "items" (fun xs => .list (xs.map subD)) e.items ++ opt "entries" (fun xs => .list (xs.map subD)) e.entries
    ++ opt "lines" (fun ls => .list (ls.map fun b => .dict (baseD b ++ [typeD .mlValue]))) e.lines
    ++ opt "end" (fun b => .dict (baseD b ++ [("type", .str "MULTILINE_FIELD_END".toList)])) e.fin
    ++ (if e.type = .document ∨ e.type = .section then [("elements", .list (e.elements.map (elemD h)))] else []))
def metaD : Meta → D
  | .comment c => commentD c
  | .raw b t => .dict (baseD b ++ opt "type" (fun t => .str (tyName t).toList) t)

partial def diff (at_ : String) : D → D → List String
  | .dict xs, .dict ys =>
    (xs.flatMap fun (k, x) => match ys.lookup k with | some y => diff (at_ ++ "." ++ k) x y | none => [s!"{at_}.{k} only in the model: {x.show}"])
      ++ (ys.filterMap fun (k, y) => if (xs.lookup k).isNone then some s!"{at_}.{k} only in the snapshot: {y.show}" else none)
  | .list xs, .list ys =>
    if xs.length = ys.length then ((List.range xs.length).zip (xs.zip ys)).flatMap fun (n, x, y) => diff s!"{at_}[{n}]" x y
    else [s!"{at_}: {xs.length} and {ys.length} elements"]
  | a, b => if same a b then [] else [s!"{at_}: {a.show} and {b.show}"]

def analysis (name input : String) (snapshot : Ex) : IO Unit := do
  let (r, _) := ((eval [] snapshot).run).run {}
  match r, load input.toList with
  | .ok d, .ok ctx =>
    let got := D.dict [("document", elemD ctx.heap 0), ("line_count", .int ctx.lineCount), ("meta", .list (ctx.metas.map metaD))]
    match diff "" got d with
    | [] => IO.println s!"{name}: 1 of 1"
    | ls => do
      IO.println s!"{name}: 0 of 1"
      for l in ls do IO.println s!"  {l}"
  | _, _ => IO.println s!"{name}: no context"
