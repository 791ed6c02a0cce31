#!/usr/bin/env python3
"""Regenerates /verif/properties.jsonl from the table below (plain data, no project code is run)."""
import json, os
P = []
def p(id, title, statement, quantifier, why, anchors):
    P.append(dict(id=id, title=title, statement=statement, quantifier=quantifier, why_tests_cant=why, anchors=anchors))
A='python/enolib/analyzer.py'; G='python/enolib/grammar_regex.py'; R='python/enolib/resolver.py'; X='python/enolib/context.py'
L='python/enolib/lookup.py'; RP='python/enolib/reporters/reporter.py'; S='python/enolib/elements/section.py'
F='python/enolib/elements/fieldset.py'; LI='python/enolib/elements/list.py'; SE='python/enolib/elements/section_element.py'
V='python/enolib/errors/validation.py'; PE='python/enolib/errors/parsing.py'; SEL='python/enolib/errors/selections.py'

# ---- grammar -------------------------------------------------------------
p('C01','Line grammar is exactly the documented one',
  'At every offset of every input, the line recogniser accepts exactly the documented line forms (blank, comment, field/empty element, list item, fieldset entry, direct/spaced continuation, section heading with or without copy, multiline field begin, copy) and reports exactly the trimmed key, value, template and operator texts and their offsets; every other text is rejected as an invalid line.',
  'every input string and every offset in it','a backtracking regular expression with lazy groups, back-references and look-aheads has unboundedly many inputs; tests sample a few lines',
  [f'{G}::Grammar.REGEX', f'{A}::Analyzer.analyze'])
p('C02','Field round-trip',
  'Writing `key: value` with any admissible unescaped key and any trimmed value, with any amount of horizontal white space around key, colon and value, and parsing it yields one field with exactly that key and that value.',
  'every admissible key, every trimmed one-line value, every white space padding','keys and values range over all Unicode strings',
  [f'{G}::Grammar.KEY_UNESCAPED', f'{G}::Grammar.ELEMENT_OR_FIELD', f'{A}::Analyzer.analyze', f'{X}::Context.value'])
p('C03','Escaped keys make every key writable',
  'For every trimmed non-empty one-line key there is a number of backticks such that the key written between that many backticks and followed by `:` parses back to exactly that key, even when the key contains operators or backticks.',
  'every trimmed non-empty one-line key','backtick runs of unbounded length inside keys interact with lazy matching and back-references',
  [f'{G}::Grammar.KEY_ESCAPED', f'{A}::Analyzer.analyze'])
p('C04','Every other one-line form round-trips',
  'List items, fieldset entries, direct and spaced continuations, comments, section headings of any depth (plain, shallow copy, deep copy), copies and multiline field openers written with arbitrary horizontal padding are recognised as such with exactly the texts written.',
  'every admissible key/value/template, every operator length, every padding','unbounded texts, depths and paddings',
  [f'{G}::Grammar.REGEX'])
p('C05','Multiline fields are verbatim',
  'A multiline field opened with n >= 2 dashes and a key, followed by any body none of whose lines is a terminator line, followed by its terminator, yields a field whose value is exactly the body text, byte for byte (no value if there is no body line).',
  'every dash count, key and body text','bodies are arbitrary text that may look like any other eno construct, including near-miss terminators',
  [f'{A}::Analyzer.analyze (MULTILINE_FIELD branch)', f'{X}::Context.value'])
p('C06','Horizontal white space around a line never matters',
  'Indenting a line or appending trailing horizontal white space (blanks, tabs, carriage returns, ...) changes neither the kind of the line nor any key, value or template read from it.',
  'every line, every horizontal white space prefix and suffix','any Unicode white space mixture, any line',
  [f'{G}::Grammar.REGEX'])
# ---- analyzer ------------------------------------------------------------
p('C07','Analysis always terminates with a document or a ParseError',
  'For every input the analysis phase (everything parse does before copies are resolved) terminates and either produces a document or raises ParseError; it raises no KeyError, TypeError, IndexError or other incidental exception.',
  'every input string','an incidental crash may hide behind any of unboundedly many inputs and states',
  [f'{A}::Analyzer.analyze', f'{A}::Analyzer._tokenize_error_context'])
p('C08','No content is silently dropped',
  'When analysis succeeds, every character of the input that is not white space lies on the line range of some element, item, entry, continuation, comment, multiline value line or multiline terminator reachable from the document or from the collected meta comments.',
  'every successfully analysed input and every character position','a lost line can occur at any position in any context',
  [f'{A}::Analyzer.analyze'])
p('C09','Instructions are ordered and disjoint',
  'In every analysed document the instructions, read in document order, have strictly increasing line numbers and pairwise disjoint, increasing source ranges, so no two distinct instructions share a line.',
  'every input, every pair of instructions','pairs of instructions in arbitrarily large documents',
  [f'{A}::Analyzer.analyze'])
p('C10','Ranges are faithful',
  'For every instruction of every analysed document each reported range lies within the input and within the instruction line range, and the stored key, value, template and comment texts equal the input slices at their ranges; the ranges an instruction has are exactly those of its kind, and the slice at a range is what its name says (the operator itself, a trimmed text on one line, the same backticks before and after an escaped key).',
  'every input, instruction and range','offsets depend on all preceding text',
  [f'{A}::Analyzer.analyze', f'{G}::Grammar'])
p('C11','Line numbers are the true line numbers',
  'The line number of every instruction equals the number of line feeds preceding it in the input, and the line count of a successfully analysed document equals the number of line feeds plus one.',
  'every input and instruction','depends on all preceding text; violated only by particular multi-line matches',
  [f'{A}::Analyzer.analyze', f'{G}::Grammar.SECTION', f'{G}::Grammar.LATE_DETERMINED'])
p('C12','Section nesting follows heading depth',
  'A heading with n hash signs starts a section whose parent is the nearest preceding section with n-1 hash signs (the document for n = 1) with no heading of fewer than n hash signs in between; sections nest exactly by depth.',
  'every input, every heading','arbitrary sequences of depths',
  [f'{A}::Analyzer.analyze (SECTION branch)'])
p('C13','Hierarchy layer skips are rejected, exactly',
  'A heading more than one level deeper than the innermost open section is always rejected with a ParseError, and no other heading is rejected for its depth.',
  'every input, every heading','arbitrary depth histories',
  [f'{A}::Analyzer.analyze (SECTION branch)', f'{PE}::Parsing.section_hierarchy_layer_skip'])
p('C14','Elements belong to the section they are written under',
  'Every non-section element is a child of the nearest preceding section heading (the document if there is none), children lists are in document order, and every element is the child of exactly one section, its recorded parent.',
  'every input, every element','arbitrary nesting histories',
  [f'{A}::Analyzer.analyze'])
p('C15','List items and fieldset entries attach to the preceding element or are rejected',
  'A list item (fieldset entry) is appended to the immediately preceding non-section element of the same section if and only if that element is a list (fieldset) or still empty; in every other situation the parse fails with the corresponding ParseError.',
  'every input, every item and entry','depends on the whole history since the last element',
  [f'{A}::Analyzer.analyze (LIST_ITEM, FIELDSET_ENTRY branches)'])
p('C16','Continuations attach to the preceding continuable element or are rejected',
  'A line continuation is appended to the most recent field, empty element, list item or fieldset entry if nothing but blank lines, comments and continuations stands in between; otherwise the parse fails with a ParseError.',
  'every input, every continuation','depends on the whole history since the last element',
  [f'{A}::Analyzer.analyze (CONTINUATION branches)'])
p('C17','Comments are attached to the next element or kept, never lost or duplicated',
  'Every comment line of a successfully analysed input ends up exactly once: in the comments of the element, item, entry or section that follows it with only comments in between, or else among the document-level meta comments.',
  'every input, every comment','comment blocks interact with every other line kind',
  [f'{A}::Analyzer.analyze'])
p('C18','Elements have one consistent kind',
  'After analysis an element is a list iff it has items, a fieldset iff it has entries, a multiline field iff it was opened by dashes; never both; a field never has items or entries and an empty element has no value, items, entries or continuations.',
  'every input, every element','kinds mutate as later lines arrive',
  [f'{A}::Analyzer.analyze'])
p('C19','Unterminated multiline fields are rejected, exactly',
  'A multiline field is accepted if and only if some later line, stripped of horizontal white space, consists of the same number of dashes, optional white space and the same key; the first such line terminates it.',
  'every input, every multiline field','the terminator may be arbitrarily far away and the key contains arbitrary (regex-special) characters',
  [f'{A}::Analyzer.analyze (terminator_re)', f'{PE}::Parsing.unterminated_multiline_field'])
# ---- values --------------------------------------------------------------
p('C20','Continuations compose the value as documented',
  'The value of a field, list item or fieldset entry with continuations is the concatenation of its non-empty parts where a single blank separates two consecutive parts iff at least one spaced continuation occurs after the first of them up to the second; there is no value iff all parts are empty.',
  'every sequence of continuations','arbitrary interleavings of empty/non-empty and direct/spaced continuations',
  [f'{X}::Context.value'])
p('C21','Reading is idempotent',
  'Reading values, comments, entries, items or elements any number of times and in any order always returns the same results as a first read; the caches stored on instructions are never stale.',
  'every document and every history of reads','histories of reads are unbounded',
  [f'{X}::Context.value', f'{X}::Context.comment', f'{X}::Context.entries', f'{X}::Context.items', f'{X}::Context.elements'])
p('C22','Multi-line comments are dedented by their common indent',
  'The comment of an element with several comment lines is those lines from the first to the last non-empty one, joined by line feeds, each indented by its column minus the smallest column among non-empty lines; reading the comment of any element never fails.',
  'every comment block','arbitrary numbers of lines and indents; failing only for one corner shape',
  [f'{X}::Context.comment'])
# ---- resolver ------------------------------------------------------------
p('C23','Copies need exactly one template',
  'A document containing copies of a non-section element (of a section) k parses only if exactly one non-section element (section) with key k other than copies of k itself exists; with none the parse fails with not-found, with two or more it fails with two-or-more-templates.',
  'every document','any number of candidates anywhere in the tree',
  [f'{R}::Resolver.index', f'{R}::Resolver.resolve'])
p('C24','Copy cycles of non-section elements are rejected, exactly',
  'Following templates from a copied non-section element either ends at an element that is not a copy or revisits an element; the parse fails with a cyclic dependency error iff some copied element is of the second sort (given unique templates and compatible kinds).',
  'every document','template chains of unbounded length',
  [f'{R}::Resolver.resolve_non_section_element'])
p('C25','Copy resolution always terminates with a document or a ParseError',
  'For every analysed document copy resolution terminates and either succeeds or raises a ParseError.',
  'every document','cycles through nested, deep and shallow copies',
  [f'{R}::Resolver.resolve', f'{R}::Resolver.resolve_section', f'{PE}::Parsing.cyclic_dependency'])
p('C26','After parsing no copy is pending',
  'In every successfully parsed document every element that was written as a copy has been resolved against its template.',
  'every document','arbitrary dependency graphs',
  [f'{R}::Resolver.resolve'])
p('C27','A copied element without own content reads like its template',
  'After a successful parse, an element copied from a field or multiline field has the template value; one copied from a list without adding items has exactly the template items; one copied from a fieldset without adding entries has exactly the template entries, through chains of copies of any length.',
  'every document, every copied element','chains of copies of unbounded length',
  [f'{R}::Resolver.consolidate_non_section_elements', f'{R}::Resolver.mirror', f'{X}::Context.value', f'{X}::Context.items', f'{X}::Context.entries'])
p('C28','Extended lists append',
  'The items of a list copied from another list and followed by own items are the template items followed by the own items, through chains of any length.',
  'every document, every extended list','chains of unbounded length',
  [f'{X}::Context.items', f'{LI}::List._instantiate_items'])
p('C29','Extended fieldsets override',
  'The entries of a fieldset copied from another fieldset and followed by own entries are the template entries whose keys are not redefined, in template order, followed by the own entries, through chains of any length.',
  'every document, every extended fieldset','chains of unbounded length',
  [f'{X}::Context.entries', f'{F}::Fieldset._instantiate_entries'])
p('C30','Incompatible copies are rejected',
  'Adding list items to a copy of a field, multiline field or fieldset, or fieldset entries to a copy of a field, multiline field or list is always rejected with a ParseError.',
  'every document','template kind may itself be the result of a chain of copies',
  [f'{R}::Resolver.consolidate_non_section_elements'])
p('C31','Reading any copied non-section element terminates',
  'After a successful parse following mirror and extend links from any non-section element always terminates, so values, items and entries can be read.',
  'every document, every element','would need every dependency graph',
  [f'{R}::Resolver', f'{X}::Context'])
p('C32','Reading the elements of any section terminates',
  'After a successful parse, reading the elements of any section terminates, whatever shallow or deep copies the document contains.',
  'every document, every section','would need every dependency graph; fails only for one cyclic deep-merge shape',
  [f'{R}::Resolver.consolidate_sections', f'{S}::Section._instantiate_elements'])
p('C33','Copied sections contain the template elements that are not overridden',
  'The elements of a section copied from another section are its own elements followed by exactly those template elements whose keys it does not define itself, through chains of any length.',
  'every document without deep copies, every section','chains of unbounded length and arbitrary key overlaps',
  [f'{R}::Resolver.consolidate_sections', f'{S}::Section._instantiate_elements'])
p('C34','Copying never modifies other elements',
  'Resolving copies leaves every element that is not itself a copy (and not a section merged by a deep copy) exactly as analysed: same kind, key, value, items, entries, elements and comments.',
  'every document, every element','aliasing bugs show only under particular sharing',
  [f'{R}::Resolver'])
p('C35','Raw output agrees with the typed API',
  'raw() on a list or fieldset lists exactly the items and entries that the typed accessors return, in the same order; raw() on a section or document succeeds and lists the elements the typed accessors return.',
  'every document, every list, fieldset and section','two independent implementations of copy semantics',
  [f'{X}::Context.raw', f'{X}::Context.elements', f'{F}::Fieldset._instantiate_entries', f'{LI}::List._instantiate_items', f'{S}::Section._instantiate_elements'])
# ---- reporting -----------------------------------------------------------
p('C36','Error selections lie in the document and are consistent',
  'Every ParseError raised while analysing selects a span with from.index <= to.index within the input, whose columns equal the index minus the begin of the line, on a line smaller than the line count.',
  'every rejected input','every error site and every preceding text',
  [f'{SEL}::cursor', f'{SEL}::selection', f'{PE}::Parsing'])
p('C37','Snippets can always be produced for parse errors',
  'For every input rejected during analysis the error, including its snippet, can be constructed by the text reporter: no index error and no other incidental exception while reporting.',
  'every rejected input','a crash inside error reporting may hide behind any document shape',
  [f'{RP}::Reporter', f'python/enolib/reporters/text_reporter.py::TextReporter', f'{PE}::Parsing'])
p('C38','Snippets show the offending line with its number and its text',
  'The snippet of a parse error contains the reported line marked with `>`, with its one-based number and exactly its source text, and every other shown line carries its own number and its own source text.',
  'every rejected input','line bookkeeping depends on the whole document',
  [f'{RP}::Reporter.snippet', f'python/enolib/reporters/text_reporter.py::TextReporter._line'])
p('C39','HTML snippets escape document content',
  'No character of the document text or of the gutter reaches the HTML snippet unescaped: every <, >, &, double and single quote of the content is replaced by its entity and unescaping gives back the text.',
  'every document text','arbitrary text including markup',
  ['python/enolib/reporters/html_reporter.py::HtmlReporter._markup'])
p('C40','Validation errors about a section can always be reported',
  'Raising a missing-element or element error about any section or element of any successfully parsed document succeeds in building the snippet.',
  'every document, every section','crashes only for particular sequences of element kinds',
  [f'{RP}::Reporter._tag_section', f'{RP}::Reporter._tag_element', f'{V}::Validation.missing_element'])
p('C41','Snippet context window',
  'A line that no report tagged is shown only if it is within two lines of a tagged line; an omission marker is only placed where lines are omitted, and tagged lines are always shown.',
  'every set of tagged lines','arbitrary sets of tagged lines in documents of any size',
  [f'{RP}::Reporter.snippet'])
# ---- API -----------------------------------------------------------------
p('C42','Single-element accessors',
  'section.field(key), .fieldset(key), .list(key), .section(key), .empty(key), .element(key) return the unique element with that key if there is exactly one and its kind fits; raise ValidationError if there are several or the kind does not fit; and if there is none raise for required access, return None for optional access and a missing-object otherwise.',
  'every section, every key','arbitrary documents and keys',
  [f'{S}::Section._field', f'{S}::Section._element', f'{S}::Section._section', f'{S}::Section._list', f'{S}::Section._fieldset', f'{S}::Section._empty'])
p('C43','Keyed element lists',
  'elements(key) returns exactly the elements of elements() with that key, in the same order; the keyed index and the plain list always agree.',
  'every section, every key','arbitrary documents and keys',
  [f'{S}::Section._elements', f'{S}::Section._instantiate_elements', f'{F}::Fieldset._instantiate_entries'])
p('C44','Missing objects answer optionally and fail once required',
  'On a missing-object obtained through any chain of accessors, every optional read gives None or an empty list and every required read raises a ValidationError about the outermost missing element of the chain.',
  'every accessor chain','chains of unbounded length',
  ['python/enolib/elements/missing/missing_element_base.py::MissingElementBase', 'python/enolib/elements/missing/missing_section.py::MissingSection', f'{S}::Section._missing_error'])
p('C45','Loaders are applied exactly to present values',
  'A loader is called exactly once with the exact value iff there is a value; a ValueError it raises becomes a ValidationError; its result is returned unchanged; without a value required access raises and optional access returns None without calling the loader.',
  'every element, every loader','arbitrary loaders',
  ['python/enolib/elements/value_element_base.py::ValueElementBase._value', 'python/enolib/elements/element_base.py::ElementBase._comment'])
p('C46','assert_all_touched is exact',
  'assert_all_touched() on a section passes iff every element of it (recursively through sections, fieldset entries and list items) has been touched by the accesses made so far; otherwise it raises a validation error about an untouched one. The same for fieldsets and their entries.',
  'every document and every history of accesses','histories of accesses are unbounded',
  [f'{S}::Section.assert_all_touched', f'{SE}::SectionElement._untouched', f'{F}::Fieldset._untouched', f'{LI}::List._untouched'])
p('C47','An element is yielded as one kind only',
  'Once an element has been yielded as empty, field, fieldset or list, yielding it as a different one of these kinds raises TypeError and yielding it again as the same kind returns the same object, whatever happened in between.',
  'every element, every history of casts','unbounded histories of casts',
  [f'{SE}::SectionElement.to_empty', f'{SE}::SectionElement.to_field', f'{SE}::SectionElement.to_fieldset', f'{SE}::SectionElement.to_list', f'{SE}::SectionElement.to_section'])
p('C48','yields_x predicts to_x',
  'For a fresh element yields_x() is true iff to_x() does not raise.',
  'every element','every element kind, before and after copy resolution',
  [f'{SE}::SectionElement'])
# ---- lookup --------------------------------------------------------------
p('C49','Lookup by line finds the element written on that line',
  'lookup(line=n) returns, for every line that carries an element, item, entry or section heading, exactly that element.',
  'every document, every line','positions in arbitrarily nested documents',
  [f'{L}::check_in_section_by_line', f'{L}::lookup'])
p('C50','Lookup by index finds the element written at that position',
  'lookup(index=i) returns, for every index on the line of an element, item, entry or section heading, exactly that element.',
  'every document, every index','positions in arbitrarily nested documents',
  [f'{L}::check_in_section_by_index', f'{L}::lookup'])
p('C51','Lookup on continuation lines finds the continued element',
  'lookup on a continuation line (or inside a multiline field) returns the field, item or entry it belongs to.',
  'every document, every continuation line','positions in arbitrary documents; wrong only for the last item or entry',
  [f'{L}::check_field_by_line', f'{L}::check_list_by_line', f'{L}::check_fieldset_by_line'])
p('C52','Lookup is total on the document range and rejects everything else',
  'lookup(line, column) raises IndexError exactly for lines outside 0..line_count-1, lookup(index) exactly for indices outside 0..len(input); otherwise they return a result. (Without a column a line that carries an instruction is a TypeError.)',
  'every document, every position','every position in every document',
  [f'{L}::lookup'])
# ---- later additions -----------------------------------------------------
p('C53','Exactly the well-copied documents load',
  'A document that analyses parses iff each copied name has exactly one candidate, no non-section element is its own template in the end, own items and entries go with what they extend, and no section has to be resolved before itself (through templates and subsections).',
  'every document','chains and nestings of copies are unbounded; tests see a few shapes',
  ['python/enolib/resolver.py::Resolver.resolve', 'python/enolib/resolver.py::Resolver.resolve_section', 'python/enolib/resolver.py::Resolver.resolve_non_section_element', 'python/enolib/resolver.py::Resolver.index'])
p('C54','Copies inherit comments',
  'After a successful parse the comment of an element is its own if it has one, otherwise that of its template, through chains of copies of any length; no comment is invented.',
  'every document, every element that no deep merge can touch','chains of copies are unbounded; tests see a few shapes',
  ['python/enolib/resolver.py::Resolver.consolidate_non_section_elements', 'python/enolib/resolver.py::Resolver.consolidate_sections', 'python/enolib/context.py::Context.comment'])
p('C55','Lookup between elements finds the surrounding section',
  'Anywhere in a document lookup returns the last element that begins at or before the position, one of its items or entries, or the section it is in; after the last line of an element and before the next one it returns the section.',
  'every document, every line and every index','positions between elements of arbitrarily nested documents',
  [f'{L}::check_in_section_by_line', f'{L}::check_in_section_by_index', f'{L}::lookup'])
p('C56','Lookup reports ranges of comments that belong to no element',
  'lookup(line, column) on a comment that belongs to no element reports whether the column is in the comment or its operator (by index it never does).',
  'every document, every such comment','arbitrary documents with comments anywhere',
  [f'{L}::lookup'])
p('C57','The terminal reporter reports every parse error',
  'Parsing with reporter=TerminalReporter an input that is rejected raises ParseError with a snippet, as it does with the other reporters.',
  'every input','tests only ever use the default reporter with a handful of inputs',
  ['python/enolib/reporters/terminal_reporter.py::TerminalReporter._line', 'python/enolib/analyzer.py::Analyzer._tokenize_error_context'])
p('C58','Lines next to a tagged line are shown',
  'Every line within two lines of a tagged line of a snippet is shown as context (the converse of the window of C41).',
  'every context, every set of tagged lines','positions of tagged lines and lengths of documents are unbounded',
  ['python/enolib/reporters/reporter.py::Reporter.snippet'])
p('C59','Snippets of element errors mark exactly the element',
  'The snippet of an error about an element, an item or an entry emphasises its first line and indicates exactly its other lines (of a section: up to the last line of the last element in it); the selection reaches from the beginning of the first to the end of the last line.',
  'every document, every element that can be reported at all (see C40)','elements of arbitrary size and nesting',
  [f'{RP}::Reporter.report_element', f'{RP}::Reporter._tag_section', f'{SEL}::select_element', f'{SEL}::last_in'])
p('C60','Errors about keys, values and comments point at them',
  'The selection of an error about a key, value or comment is exactly that key, value (one line, continued or multiline; of a copy its key) or comment; that of a missing value is the gap behind the operator or template, that of a missing comment the empty place before the line. The snippet marks exactly the lines concerned. comment_error without comments and key_error on an item raise KeyError, missing_value on a list, fieldset or section UnboundLocalError.',
  'every document, every element, item and entry, every message','keys, values, comments and their positions are arbitrary; tests see a few literal positions',
  [f'{V}::Validation.key_error', f'{V}::Validation.value_error', f'{V}::Validation.comment_error', f'{V}::Validation.missing_comment', f'{V}::Validation.missing_value', f'{SEL}::select_comments', f'{SEL}::select_key', f'{SEL}::selection', f'{RP}::Reporter.report_comments'])
p('C61','Fieldset accessors return exactly the entries with the key',
  'entries(key) returns the objects of all entries with the key in order (without a key all); entry, optional_entry and required_entry return the only one, raise if there are several, and if there is none raise for required_entry or after all_entries_required() and otherwise return None.',
  'every document, every sequence of earlier calls, every fieldset and key','numbers of entries, keys and the calls made before are unbounded',
  [f'{F}::Fieldset._entry', f'{F}::Fieldset._entries', f'{F}::Fieldset.entries', f'{F}::Fieldset.entry'])
p('C62','Errors made by elements call the message function once with what it is about',
  'error, key_error, value_error and comment_error use a text as it is; a function is called exactly once, with the element, its key, the value the document says or its comment. The error that is returned is about that element, whatever the function does; nothing is touched by it.',
  'every document, every sequence of earlier calls, every object, every message or function that uses the API','functions and call sequences are arbitrary',
  ['python/enolib/elements/element_base.py::ElementBase.error', 'python/enolib/elements/element_base.py::ElementBase.key_error', 'python/enolib/elements/element_base.py::ElementBase.comment_error', 'python/enolib/elements/value_element_base.py::ValueElementBase.value_error'])
p('C63','all_elements_required reaches all sections and fieldsets',
  'all_elements_required(b) sets the flag of the section, of all sections and fieldsets in it at any depth and of those made later, and of nothing else, and touches nothing. (It raises AttributeError if some section or fieldset in it was not accessed yet.)',
  'every document, every sequence of earlier calls, every section','nesting and call sequences are unbounded',
  [f'{S}::Section.all_elements_required', f'{F}::Fieldset.all_entries_required', f'{SE}::SectionElement.to_section', f'{SE}::SectionElement.to_fieldset'])
p('C64','parent() returns the object an element was obtained from',
  'parent() of an entry returns its fieldset, of an item its list, of a field, empty, list or fieldset its section; the document raises KeyError and every other section returns None. What is made of an element returned by lookup was not obtained from anything: parent() of lists and fieldsets then returns a new object for their section, that of fields and empties raises AttributeError.',
  'every document, every sequence of earlier calls, every object','nesting and call sequences are unbounded',
  [f'{S}::Section.parent', f'{F}::Fieldset.parent', f'{LI}::List.parent'])
p('C65','touch() touches exactly what is in the element',
  'touch() touches the object, all objects made in it at any depth and all their items and entries, and nothing else; on an element that was not used as something yet it does nothing.',
  'every document, every sequence of earlier calls, every object','nesting and call sequences are unbounded',
  [f'{S}::Section.touch', f'{F}::Fieldset.touch', f'{LI}::List.touch', f'{SE}::SectionElement.touch'])
p('C66','Parse errors say what is wrong with which line',
  'What the message of a ParseError says about the input is so (which line is an item, entry, continuation, heading or nothing that it must not be, which key is not closed, which multiline field has no end, which template is missing, ambiguous or cyclic), the selection is exactly the line or text concerned, and the snippet emphasises that line and indicates or questions exactly the other lines concerned.',
  'every input that is rejected by parse','inputs and the places of the errors in them are arbitrary; tests see one literal input per message',
  [f'{PE}::Parsing', f'{A}::Analyzer.analyze', f'{R}::Resolver.resolve'])
p('C67','Errors about several, missing and mistyped elements have the key and point at the right lines',
  'The error that is raised when several elements are found where one was expected has the message for that with the key, selects the first of them, emphasises their first lines and indicates their other lines. That for a missing element has the message with the key, selects the end of the heading or first line of what it is missing in (the beginning of the document), and questions or indicates exactly the lines where it is missed.',
  'every document, every list of elements, items and entries, every section, fieldset or list, every key and message','numbers, sizes and places of the elements are unbounded',
  [f'{V}::Validation.unexpected_multiple_elements', f'{V}::Validation.missing_element', f'{V}::Validation.unexpected_element_type', f'{RP}::Reporter.report_elements', f'{RP}::Reporter.report_missing_element'])
p('C68','Documents round-trip',
  'A document without copies - fields, multiline fields, empty elements, lists, fieldsets, continuations, comments and nested sections - written in any admissible way (white space, blank lines, unassociated comments, escaped or unescaped keys, any number of dashes, backticks) is accepted, and raw() shows exactly what was written, whatever was read before. Two documents that can be written as the same text look the same, and every document with trimmed keys and texts can be written.',
  'every document tree, every way of writing it','documents are arbitrarily large and nested and can be written in unboundedly many ways',
  [f'{A}::Analyzer.analyze', f'{G}::Grammar.REGEX', f'{X}::Context.raw', f'{X}::Context.value', f'{X}::Context.comment'])
p('C69','Lists give their items',
  'items() of a list gives one item object per item of the document, copied ones first, in order, each with the list as its parent, and the same objects every time; length() is their number; a list made of an empty element has none. Both mark the list as touched.',
  'every document, every sequence of earlier calls, every list object','documents, copies and call sequences are unbounded',
  [f'{LI}::List.items', f'{LI}::List.length', f'{LI}::List._items', f'{LI}::List._instantiate_items'])
p('C70','What is written under some keys is read under them',
  'In a document written in any admissible way, required_section(...) along keys that occur once at their levels reaches the section; there required_field(key) gives the text and comment that were written, required_list(key) the texts of all items in order, required_fieldset(key).required_entry(key) the text of the entry; optional access to a key that was not written gives nothing and required access raises. All this whatever the program did before and in between.',
  'every document without copies, every way of writing it, every route of keys, every program before and in between','documents, ways of writing and programs are unbounded',
  [f'{S}::Section._section', f'{S}::Section._field', f'{S}::Section._list', f'{S}::Section._fieldset', f'{F}::Fieldset._entry', f'{A}::Analyzer.analyze'])
p('C71','A terminal shows the snippet of the text reporter in colours',
  'For any report about a document the terminal reporter prints something exactly if no shown line has the operator of a deep copy. Read as a terminal reads it, that is the same lines with the same numbers and marks as with the text reporter, every character of a line being there once, with the look of the range that it is in (keys and templates bold, values dim, operators white, comments grey) and a gutter that depends on the mark.',
  'every document without escape characters, every report, every source','documents and reports are unbounded',
  ['python/enolib/reporters/terminal_reporter.py::TerminalReporter._line', 'python/enolib/reporters/terminal_reporter.py::TerminalReporter._print', 'python/enolib/reporters/terminal_reporter.py::TerminalReporter.__init__'])
p('C72','The reporter only changes the snippet',
  'Whether a document is accepted, with which result, or with which text and selection an error is raised does not depend on the reporter, the source or the messages in snippets (as long as the reporter does not fail itself, which only the terminal reporter does).',
  'every input, every two choices of options, every validation error','inputs and options are unbounded',
  [f'{PE}::Parsing', f'{V}::Validation', 'python/enolib/context.py::Context'])
p('C73','Deep copies merge sections',
  'A section of a deep copy shows its own elements, then those that the section with the same key in the template shows and whose keys it does not define, and so on at every level. Reading a section fails exactly if following what it is merged with ends in a circle, and never in documents without such circles.',
  'every accepted document, every section of it','nesting, copies of copies and the order in which they are resolved are unbounded',
  [f'{R}::Resolver.consolidate_sections', f'{R}::Resolver.resolve_section', f'{S}::Section._instantiate_elements'])
p('C74','Messages are unambiguous in every language',
  'In each of the three languages every message that parse can raise has a text; two different messages (kind, line number, key) never have the same text, whatever the keys are. The language, the reporter and the source do not change which inputs are accepted, and the same input is rejected with the translation of the same message and with the same selection. The whole message is text, blank line and snippet. The texts are those of the message files, with line number and key in place of the names in braces.',
  'every locale, every message with every line number and key, every input','keys are arbitrary strings that may look like parts of messages',
  ['python/enolib/messages/en.py', 'python/enolib/messages/de.py', 'python/enolib/messages/es.py', 'python/enolib/error_types.py::Error', f'{PE}::Parsing', f'{X}::Context.__init__'])
p('C75','Programs do not depend on the reporter, and the errors that they get are in order',
  'A program that uses the API - any sequence of calls that depends on earlier results and errors, with loaders and message functions that use the API themselves - touches and creates the same objects and gets the same results and errors, apart from snippets, with every language, source and reporter (the terminal reporter may fail). Each validation error that it gets is about something that is in the document, has a text in every language, and selects a part of the document: from a position on a line to one on the same or a later line, columns counted from the beginning of the line.',
  'every accepted document, every program, every two choices of options','programs are arbitrary trees of calls with arbitrary functions in them; tests run fixed calls with one reporter',
  [f'{V}::Validation', 'python/enolib/elements/element_base.py', f'{S}::Section', 'python/enolib/reporters/reporter.py::Reporter'])
p('C76','Registered loaders',
  'After any calls of register, optional_n_value() and the other methods for a name n do, on every object, what optional_value(f) and so on do with the function f that was registered last under n; on missing objects they do what they do with any loader. Different names give different methods. Registering changes no other attribute of any class, and none of the methods that the library comes with.',
  'every sequence of calls of register with functions, dictionaries and named arguments, every name, every object','names are arbitrary strings that may look like parts of other names',
  ['python/enolib/register.py::register', 'python/enolib/register.py::_register', f'{F}::Fieldset', f'{LI}::List'])
p('C77','Looking at objects does not change them',
  'repr of any object returns a text on one line with its class, its key and its value (shortened to 14 characters) or the number of its items, entries or elements as the document says. It touches nothing and changes nothing that a program could notice.',
  'every accepted document, every object that a program can get, every program before','documents and programs are unbounded; tests look at a few objects once',
  ['python/enolib/elements/value_element_base.py::ValueElementBase._print_value', f'{S}::Section.__repr__', f'{LI}::List.__repr__', f'{F}::Fieldset.__repr__', 'python/enolib/elements/element.py::Element.__repr__'])
p('C78','The element that lookup returns is the element in the document',
  'On the line of an element, item, entry or section heading lookup returns an element that can be made into the kind of thing that is written there and into nothing else; its key and value are those in the document. Everything said about objects also holds for those made of it.',
  'every accepted document, every line with an element, item, entry or section heading, every column, every program after it','documents and programs are unbounded; tests only look at the raw representation of what lookup returns',
  ['python/enolib/lookup.py::lookup', 'python/enolib/elements/element.py::Element', f'{SE}::SectionElement'])
p('C79','Only what the lines say matters',
  'Two documents whose lines say the same, apart from blank lines, indentation, white space between the parts of a line, the escaping of keys and comments that belong to no element, are both accepted or both rejected. If accepted they have the same elements, and all values, comments, items, entries, elements and raw representations are the same, in whatever order they are asked for. If rejected the messages differ at most in the line number.',
  'every pair of texts whose lines say the same; in particular every text and any white space in front of any of its lines','texts and layouts are unbounded; layout independence is a relation between infinitely many pairs of inputs that no test compares',
  [f'{A}::Analyzer.analyze', f'{R}::Resolver.resolve', f'{X}::Context', f'{G}::Grammar'])
p('C80','Programs do not depend on the layout of the document',
  'If the lines of two documents say the same, apart from blank lines, indentation, white space between the parts of a line, the escaping of keys and comments that belong to no element, then a program that uses the API (with loaders, message functions, error handling) and looks at the messages of errors but not at their snippets and selections gets the same results, the same exceptions and validation errors with the same messages from both, and leaves the same objects touched.',
  'every pair of texts whose lines say the same, every program and every pair of reporters (text, HTML) and languages','programs, texts and layouts are unbounded; that no error message depends on where something is written is a relation between infinitely many pairs of runs',
  ['python/enolib/errors/validation.py', 'python/enolib/elements/section.py::Section', 'python/enolib/elements/element_base.py', f'{X}::Context'])
p('C81','Python exceptions happen only for known reasons',
  'A call of a method of an element, or of a missing element, ends with a result, a validation error, a value rejected by a loader, an exception of a function that was passed, or one of these: AttributeError if the class does not have the method, if all_elements_required meets a section or fieldset that was not yielded, or for the parent of a field or empty that was made of what lookup returned; KeyError for complaints about the document itself, its key and its parent, the key of an item, a comment that is not there or is one empty line, and repr of an Element for an item or the document; TypeError if the element was yielded as another kind, if a fieldset has an untouched entry when all must be touched, or if the reporter loses track in a section where something follows an empty element or a copied fieldset. Reading values, items and entries, touching and asking for kinds never end with a Python exception; only raw ends with others (RecursionError). In documents without deep copies raw ends, given enough stack, with nothing but KeyError if some comment is one empty line and TypeError if some section is a copy without own elements; raw of the document returns exactly if there is neither, at any time of any program. If there is neither and the reporter cannot lose track, a call ends with a Python exception only if a function that was passed raised it, if it asks for what is not there (a method, the parent of the document or of what lookup found, the key of an item or of the document, a comment to complain about), or if elements were yielded as another kind, not yielded or not touched.',
  'every accepted document in which no section is merged with itself, the text and HTML reporters, every object in every state a program can reach, every method and every function passed','states and documents are unbounded; tests check that particular errors are raised, not that nothing else is',
  ['python/enolib/elements/element_base.py', f'{S}::Section', f'{F}::Fieldset', f'{LI}::List', f'{SE}::SectionElement', f'{V}::Validation', 'python/enolib/elements/missing/missing_element_base.py::MissingElementBase'])
p('C82','What Python code sees of raw and of the exceptions with texts',
  'Whenever raw() returns something it is a dictionary of one fixed form: type, comment only for elements with comment lines, key, and value, items, entries or elements, depending on the type; inside there are only dictionaries of the form that belongs there; type is never None. The IndexError of lookup names the line or index that was asked for and the last one that is accepted; the TypeError of to_empty, to_field, to_fieldset and to_list names the kind as which the element was and still can be yielded and the kind that was asked for. Different such situations have different texts, and the texts come exactly with these exceptions.',
  'every accepted document, every object in every state a program can reach, every integer as line and index','documents, states and numbers are unbounded; tests check two texts and a few dictionaries',
  [f'{X}::Context.raw', 'python/enolib/constants.py::InstructionType.pretty', 'python/enolib/lookup.py::lookup', f'{SE}::SectionElement'])
p('C83','The grammar of documents',
  'A text is accepted (up to the resolution of copies) if and only if its lines, read one by one and without blank lines and comments that belong to nothing, are the lines of a tree: elements with a text and continuations, items, entries or verbatim lines, copies with items or entries below them, and sections, each with its elements first and then its subsections, which have one more hash sign. There is at most one such tree. Whatever is read, keys, values, templates and comments are trimmed. A text without copies is parsed exactly if it has such a tree without copies, and raw then shows this tree, however the text is laid out.',
  'every text (for raw: every text without copies and without comments that are a single empty line, in every session)','texts and trees are unbounded; that nothing else is accepted, and that a text is never read in two ways, is a statement about all of them',
  [f'{A}::Analyzer.analyze', G, f'{X}::Context.raw'])
p('C84','What documents with copies mean',
  'A text whose lines are the lines of a tree is parsed if and only if the tree means something: each copied name has exactly one template in the whole document (of its kind: section or element, and itself no copy of that name), own items and entries go with what the template contains, and nothing needs its own meaning. What raw then shows is this meaning: a copy shows its own key, its own comment or else that of the template, and the contents of the template (except for entries and elements of keys it has itself) before its own. A tree means at most one thing, and every tree with trimmed texts can be written.',
  'every text and tree; for raw: in every session, without comments that are a single empty line, deep copies of sections and copies of sections without contents of their own (where the code deviates, see C21, C22)','documents, chains of copies and ways of writing them are unbounded',
  [f'{A}::Analyzer.analyze', f'{X}::Context.raw', 'python/enolib/resolver.py::Resolver.resolve'])
p('C85','What documents with copies mean is what programs read',
  'In a document with copies, however it is written, required_section(...) along keys that occur once at their levels reaches the section with this meaning; there required_field(key) gives the text and comment that the document means (C84), required_list(key) the texts of all items, copied ones first, required_fieldset(key).required_entry(key) the text of the entry that is in force; access to a key that does not occur gives nothing or raises, and access to a single element of a key that occurs more than once raises. If everything with a key is of one kind, fields(key), lists(key), fieldsets(key) and sections(key) give one object for each, in the order of raw, that reads like what is meant, also in any one of several sections with the same key; if something with the key is of another kind (and not empty), they raise. All this whatever the program did before and in between.',
  'every tree without deep copies of sections and comments that are a single empty line, every text that says it, every route of keys, every program before and in between','documents, ways of writing and programs are unbounded',
  [f'{S}::Section._section', f'{S}::Section._field', f'{S}::Section._list', f'{S}::Section._fieldset', f'{F}::Fieldset._entry', f'{A}::Analyzer.analyze', 'python/enolib/resolver.py::Resolver.resolve'])
p('C86','Comments do not matter',
  'Two texts whose lines say the same apart from comments and blank lines are the same document apart from comments. One is parsed if and only if the other is, and if not, the same error is reported. If so, they have the same elements, and values, items, entries and elements of each element are the same, and raw outputs are the same but for comments. In particular this is so if a comment is inserted in front of any line (with something behind it), for example between an element and its continuations, or between a list and its items. Programs that read neither comments nor raw, in no function that they pass either, and look at messages, but not at snippets and selections, do the same with both texts: they create and touch the same objects and get the same results and messages.',
  'every two texts that say the same apart from comments; every text, line and comment; every program that does not read comments','texts and places for comments are unbounded; comments are kept as pending while other lines are read, and given to copies of elements',
  [f'{A}::Analyzer.analyze', 'python/enolib/resolver.py::Resolver.resolve', f'{X}::Context.raw'])
p('C87','Copies can be written out',
  'What raw shows of a document with copies is, as a dictionary, what raw shows of some document without copies if and only if wherever it shows sections they come after everything else. This is so in particular if no section is a copy, so copies of fields, lists and fieldsets can always be replaced by what they stand for. It is not so for all documents: a copy of a section with subsections that has a field of its own shows the subsections first.',
  'every tree with copies that means something, and every text that says it (for raw: without comments that are a single empty line, deep copies of sections and copies of sections without contents of their own)','it is about the existence of a text among all texts, for unbounded documents and chains of copies',
  [f'{X}::Context.raw', f'{X}::Context.elements', 'python/enolib/resolver.py::Resolver.resolve'])
json_path = os.path.join(os.path.dirname(__file__), '..', 'properties.jsonl')
with open(json_path, 'w') as f:
    for x in P:
        f.write(json.dumps(x, ensure_ascii=False) + '\n')
print(len(P))
