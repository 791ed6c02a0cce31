# Formal model of enolib (python) in Lean 4 — design

Source modelled: `/repo/python/enolib` (the Python implementation). Nothing is
executed; the model is transcribed by reading. Every definition of the model
cites file and lines.

## Layers

| Lean module | models | notes |
|---|---|---|
| `Verif/Basic.lean` | Python `str` as `List Char`, `str.isspace` class | code points; lone surrogates are not representable |
| `Verif/Regex.lean` | the backtracking matcher of Python's `re` (trusted reading of `sre`) | continuation passing, priorities respected |
| `Verif/Grammar.lean` | `grammar_regex.py`, `terminator_re`, `UNTERMINATED_ESCAPED_KEY` as regex ASTs | literal transcription, group numbers kept |
| `Verif/Tok.lean` | reading of match groups | |
| `Verif/Data.lean` | the instruction dictionaries | a key that may be absent is an `Option` |
| `Verif/Analyzer.lean` | `analyzer.py` | heap of section-level elements; items/entries/continuations/comments inline |
| `Verif/Resolver.lean` | `resolver.py` | on the heap, identity by heap index |
| `Verif/Context.lean`, `Session.lean` | `context.py`, and programs that ask a context | caches are state |
| `Verif/Instantiate.lean` | the parts of `elements/` that find children | |
| `Verif/Reporter.lean` | `reporters/*.py` | all three reporters |
| `Verif/Errors.lean` | `error_types.py`, `errors/*.py`, `parse.py` | a message is structured (`Msg`) |
| `Verif/Messages.lean`, `MessageTexts.lean`, `Shown.lean` | `messages/{en,de,es}.py`, `error_types.py` | the texts are generated from the files by `tools/gen_messages.py` |
| `Verif/Elements.lean`, `Calls.lean` | `elements/*.py`, `elements/missing/*.py` | objects in a heap; `Calls` has one constructor per public method |
| `Verif/Register.lean` | `register.py` | class attributes, bases, `setattr` |
| `Verif/Lookup.lean` | `lookup.py` | |
| `Verif/PyTexts.lean` | `constants.py` (`pretty`), the dictionaries of `raw`, the texts of exceptions that the library raises with a text | beside the functions, which raise without text |
| `Verif/Spec/*.lean` | independent specifications | no reference to the model's helpers |
| `Verif/Proofs/*.lean` | lemmas | |
| `Verif/Props/*.lean` | one theorem (or a few) per property, with examples that meet the hypotheses | |

Python exceptions are values (`PyExc`: KeyError, TypeError, AttributeError,
IndexError, UnboundLocalError, RecursionError, …). Loops and recursions whose
termination is not structural take fuel. Running out of fuel is a distinct
exception value, and that it does not happen is itself a theorem (or it is
refuted: C32 shows a document for which no amount is enough, which is
Python's RecursionError).

## Method

* **Grammar (C01–C06, C19).** The regex ASTs are proved equal, for all inputs
  and offsets, to hand-written scanners (`Spec/Scan.lean`,
  `Spec/Terminator.lean`) made of `takeWhile`/`dropWhile`/trimming. The
  round-trip claims compute these scanners on rendered lines.
* **Analysis (C07–C19).** `Spec/Trace.lean` splits an input into events (one
  per instruction) with the scanner alone. The analyzer loop is proved to follow the
  trace (`Proofs/TraceLemmas`), each event to keep an invariant
  (`AnalyzerInv`, `AnalyzerSteps`), and the final heap to be the one described
  from the events (`Layout`, `Spec/Structure.lean`). Geometry of ranges:
  `TokGeometry`, `TraceGeometry`, `Operators`.
* **Resolution (C23–C34, C53, C54).** Invariants for each of the two phases
  (`NonSectionPhase`, `SectionPhase`), a ranking for links of non-section
  elements, and what resolving never changes even if it fails (`Shadow`).
* **Deep copies (C73).** `Spec/Merge.lean` says on the written document which
  sections are merged with which, the outermost copy deciding, and what a section
  gathers that way. The invariant `Links` relates the links made so far to it.
* **Reading (C20–C22, C27–C29, C35).** `Spec/Reading.lean` defines the values
  from the heap without caches; the cached readers are proved to agree with
  it after any history of reads (`ReadCache`, `Spec/Answers.lean`). `RawOnly` goes the other way: if `raw` succeeds then it has visited
  every element, item and entry of the document, so that none of them has what `raw` fails for.
  `AnySession` has what all reads keep, also those that fail, in documents without deep copies; `Shaky` has the sections whose first read fails there.
* **Errors (C36–C41, C57–C60, C66, C67, C71, C72).** What a report
  marks and selects is specified on lines (`Spec/Marks`, `Spec/Snippet`,
  `Spec/Extent`, `Spec/Diagnosis`); HTML by an unescaping reader
  (`Spec/Html`), the terminal by a screen that interprets escape sequences
  (`Spec/Screen`).
* **Elements (C42–C48, C61–C65, C69, C70, C77, C78).** An invariant of the object graph
  holds in every world that a program can reach (`Spec/History.lean`: any
  sequence of calls, with loaders that may use the elements themselves, beginning
  with the document that `parse` returns or with the element that `lookup` returns).
* **Programs (C75, C80).** `Spec/Programs.lean` is a type of programs that call
  methods and go on depending on what they get, without looking at snippets (C75), or without
  looking at snippets and selections (C80). Two executions are proved to stay in step
  (`WorldAgree`, `WorldAgreeCalls`, `ProgramAgree`), as long as the two documents only differ in
  their places and each complaint leads to an error with both or to the same exception
  (`Setting`). C75 is the case of two reporters (`ComplaintAgree`), C80 the case of two layouts
  (`ComplaintLayout`, where it is said for each complaint when it can be made and what it says).
* **Exceptions (C81).** `Spec/Hazard.lean` lists the reasons for which a call can end with a Python
  exception; `HazardLemmas` and `HazardCalls` go through the methods and show that there are no others.
  For `raw` the invariant of objects also says that caches came from reads (`Asked`), so what is known of any reads of documents without deep
  copies (`AnySession`, `RawOnly`) holds in programs (`AskedSane`).
* **What Python code sees (C82).** `Spec/RawShape.lean` is the form of the dictionaries. That
  cached lists only contain items, entries and elements is part of the invariant of objects (`Filed` in `ReadFresh`).
* **Registered loaders (C76).** `Register.lean` has the names in the body of
  every class; that the names made by `register` are different from each other is proved for all
  names, that they meet those in the bodies only for `string` and the empty name by going through them.
* **Messages (C74).** The texts are generated from the three locale modules by
  `tools/gen_messages.py`; that any two of them can be told apart is decided on
  their fixed pieces and proved for what is filled in (`Proofs/Wording`). `C74_wording` compares every
  text with the lines of the message files as they stand (`Spec/MessageFiles.lean`, copied by `tools/gen_wording.py`).
* **Documents (C68, C70).** `Spec/Document.lean` is a document type without
  reference to the code, with all the ways to write it; what is written is read
  back.
* **Grammar (C83).** `Spec/Tree.lean` has trees for all documents, also with copies, and the lines they
  consist of. `Roles` turns the legality of `Spec/Structure.lean` into a machine with a depth and a kind,
  `TreeBuild` reads lines into a tree from the end and succeeds exactly on what the machine accepts,
  `TreeUnique` shows that it gives back the tree whose lines it reads. Written documents (C68) say their tree (`TreeSays`),
  so what holds of one way of writing a tree holds of all texts that say it (C79).
* **Meaning of copies (C84).** `Spec/Copied.lean` says what a tree with copies means: inductive relations
  between elements or sections and what is shown of them, with the whole tree as the place where templates are looked for. `CopiedRun`
  analyses the written tree and keeps track of which node is at which place of the heap, `CopiedMeans` and
  `CopiedParts` compare templates, contents and merged elements with those of the heap (C20, C21), in both directions: what means something
  is loaded (C53), what is loaded means something. `CopiedText` writes trees down and goes over to all texts that say the same. A tree with a
  comment that is a single empty line cannot be written with its comments; `QuietTree` takes the comments off a tree and shows that this changes neither its other lines nor
  whether it means something, and C86 goes back to the text with comments. So the texts that are loaded are exactly those that say a tree that means something.
  `RawDocumentProps` goes on to programs: what `raw` of the document returns after anything a program did before.
* **Reading copies (C85).** `AlikeRaw` carries what is shown of one text over to all texts that say the same. `CopiedReads` follows objects of sections down
  the meaning of the document: typed access lists own elements first and `raw` copied ones first, so the two lists are compared up to order, which is enough for elements whose key occurs once. Elements with
  one key are all own ones or all copied ones, so these are in the same order in both lists, and access to all elements with a key gives what `raw` shows under it, one by one (`CopiedObjects`).
* **Layout (C79).** `Spec/Sayings.lean` says what the lines of a text say, without
  offsets. Two runs of the analyzer on texts that say the same are kept in step
  (`AlikeRun`), then two runs of the resolver (`AlikeResolve`) and the readers
  (`AlikeLoad`). That white space between lines says nothing is `GapLemmas`.
* **Writing out copies (C87).** `Expanded` finds for each meaning of an element an element without copies with the same dictionary, and then sorts out which lists
  of elements and sections can be written: those with the sections last. That this can be seen from the dictionary shows that the condition is necessary.
* **Comments (C86).** `Hush` takes the comments out of a state of the analyzer and shows that this goes through each step, `HushResolve` does the same with
  the resolver and `HushLoad` with the readers; what is left of two texts that say the same apart from comments is then kept in step as for C79. That the
  lines before an inserted comment are read as before is `Interject`. For programs, the relation between two environments (`Setting`, also used for C75
  and C80) asks for the same comments only if the program reads comments; which complaints do not depend on them is `HushComplaint`.
* **Lookup (C49–C52, C55, C56).** Against `Spec/Position.lean`.

## Defects found

Where the code does not have a property, the negation is proved with a witness (`…_refuted`)
and the property is proved under the exact or a sufficient condition (`…_partial`).

1. `\s*` in the grammar spans line feeds, so later line numbers are too small (C11).
2. The terminal reporter raises KeyError for all analysis errors and for deep copy operators (C57).
3. A comment that is one empty line raises KeyError when read (C22, C35, C45, C62).
4. `Context.elements` returns None the first time for a section copied without own elements (C35), and differs the second time (C21).
5. `cyclic_dependency` can raise UnboundLocalError (C25).
6. A deep merge can close a cycle of links; reading it never ends (C32).
7. `_tag_section` raises TypeError after elements without an end (C40).
8. `lookup` misses continuations of the last item or entry (C51) and fails without a column (C52).
9. Comments pending at an analysis error are shown as blank lines (C38).
10. A copy of a copy whose template is missing raises KeyError (C23, C25).
11. The snippet window loses the context of a marked first line (C58).
12. The HTML reporter does not escape the name of the source (C39).
13. Elements: an element yielded as another kind raises TypeError (C42);
    required values of a missing list are an empty list (C44); `touch()` does not
    reach what was not yielded (C46); `Section.parent()` is inverted (C64);
    `entry()` is optional by default (C61);
    `all_elements_required` raises AttributeError for some sections (C63);
    `Fieldset.assert_all_touched` raises TypeError; `to_fieldset_entry` and
    `to_list_item` raise AttributeError; `error()` of a document raises KeyError;
    `key_error` of an item and `comment_error` without comments raise KeyError;
    `missing_value` of a list, fieldset or section raises UnboundLocalError (C60).
14. A deep copy merges only with subsections that the template itself contains,
    not with those it takes over by copying; an empty section that is merged more
    than once may be taken over before it is complete (C73).
15. `register` does not guard against names that the library uses itself: `string`
    and the empty name (C76).
16. `repr` of an element that stands for an item raises KeyError; `_print_value`
    replaces line breaks by line breaks (C77). `lookup` returns such elements, also for
    the document.
17. `parent()` of a field or empty that is made of the element `lookup` returns raises
    AttributeError, since the element has no `_parent` and `ValueElementBase` does not check;
    lists and fieldsets return a new object for their section each time (C64).

## Validation of the model

* `tools/conformance.py` translates the project's own tests (`/repo/python/tests`, read as text) for an interpreter
  on top of the model (`tools/conformance_prelude.txt`), which is run in a scratch directory. It is a check of the
  transcription, not part of the proofs. All 363 tests (API, elements, lookup, register, reporters, resolver, parse and
  validation errors with English texts, snippets and selections) pass on the model. All 17 snapshots of the analyzer agree (the project's own comparison of them returns
  True before it compares anything), and all 1112 variants of the pattern tests. Left out: a property-based test of `parse` and `test_messages.py`.
* `seeded/mutants.py` lists wrong programs, `tools/mutate.py` builds each
  one in a scratch copy and logs which theorems fail to `seeded/LOG.jsonl`. Survivors led to tightened
  theorems (`theorems_tightened`).
* How to read the log. "caught" says that a proof, as it is written, no longer compiles. It does not say that the
  statement of a property is false of the wrong program: a proof can also break because it rewrites with text that
  was edited. Modules behind the first failure are not built, so `claims_resting_on_them` and `property_theorems`
  are what depends on the failed declarations, not what was seen to fail. Of 599 attempts 567 were caught: in 99 a
  theorem of the manifest itself is among those that failed, in 468 only lemmas that such theorems use. 32
  attempts survived; P20 was caught later as Z01 and D56 as F38. Never caught: X22, which changes nothing (a renaming); Y37, the
  document object begins as touched (no method asks the document itself whether it was touched); Z07, unparsed lines
  are not grey in the terminal (the terminal reporter raises a KeyError whenever there are unparsed lines: C57). No
  theorem says that the last two are wrong, and nothing that a user of the API sees depends on them.
* Until round 8 `tools/mutate.py` took every failing build as caught. All entries were checked for this: one (Q27) had
  no failed declaration, because Lean ran out of memory and its messages were cut off. It was run again with the
  module alone, which names `C46_entries_refuted`; its two entries without theorems were not logged. The tool now does this itself and logs nothing if no declaration is to blame.
* Later all entries were checked for what rests on the declarations that failed. Q14, F08 and AA06 had broken only
  lemmas that nothing used; these lemmas are removed. D19, AA27 and AA30 had broken only examples, which are tests: their outcome is now
  "survived". New theorems (`C44_got`, `C74_wording`) say what they break. All six were run again (`…-again`) and are caught by
  what theorems of the manifest rest on. The tool counts a mutant as caught only if a theorem or definition fails.

## Trusted base

* The Lean 4.33 kernel. Axioms: at most `propext`, `Classical.choice`,
  `Quot.sound`; per theorem in `AXIOMS.md` (generated by `tools/gen_axioms.py`).
* That the model is what the Python source does, including the reading of
  Python's `re`, of dictionaries (insertion order), `str.isspace` and of slices.
* That the specifications say what the properties say.

## Simplifications and what is not modelled

* Recursion limit and memory: recursion that ends is not limited.
* Lone surrogates in strings; `locale` modules other than the three of the project; objects other
  than strings as error messages.
* `register` is modelled on tables of class attributes (C76); attributes of
  objects rather than classes, and those of `object`, are not in them. The methods of the
  model do not look up other methods in these tables, so it does not say what happens after
  a loader was registered as `string` or under the empty name.
* Methods that need a key argument in Python (`optional_element()` and so on)
  may be called without one in the model, which only allows more programs.
* An exception in the middle of instantiating the elements of a section leaves
  the partial list in the model as in Python (`madeElements`); items and entries
  cannot raise (C31).
* Identity of instructions (`is`, `==` on dictionaries) is identity of heap
  positions.
* The other implementations (javascript, ruby, php, rust).
