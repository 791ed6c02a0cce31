{"id": "C01", "title": "Line grammar is exactly the documented one", "statement": "At every offset of every input, the line recogniser accepts exactly the documented line forms (blank, comment, field/empty element, list item, fieldset entry, direct/spaced continuation, section heading with or without copy, multiline field begin, copy) and reports exactly the trimmed key, value, template and operator texts and their offsets; every other text is rejected as an invalid line.", "quantifier": "every input string and every offset in it", "why_tests_cant": "a backtracking regular expression with lazy groups, back-references and look-aheads has unboundedly many inputs; tests sample a few lines", "anchors": ["python/enolib/grammar_regex.py::Grammar.REGEX", "python/enolib/analyzer.py::Analyzer.analyze"]}
{"id": "C02", "title": "Field round-trip", "statement": "Writing `key: value` with any admissible unescaped key and any trimmed value, with any amount of horizontal white space around key, colon and value, and parsing it yields one field with exactly that key and that value.", "quantifier": "every admissible key, every trimmed one-line value, every white space padding", "why_tests_cant": "keys and values range over all Unicode strings", "anchors": ["python/enolib/grammar_regex.py::Grammar.KEY_UNESCAPED", "python/enolib/grammar_regex.py::Grammar.ELEMENT_OR_FIELD", "python/enolib/analyzer.py::Analyzer.analyze", "python/enolib/context.py::Context.value"]}
{"id": "C03", "title": "Escaped keys make every key writable", "statement": "For every trimmed non-empty one-line key there is a number of backticks such that the key written between that many backticks and followed by `:` parses back to exactly that key, even when the key contains operators or backticks.", "quantifier": "every trimmed non-empty one-line key", "why_tests_cant": "backtick runs of unbounded length inside keys interact with lazy matching and back-references", "anchors": ["python/enolib/grammar_regex.py::Grammar.KEY_ESCAPED", "python/enolib/analyzer.py::Analyzer.analyze"]}
{"id": "C04", "title": "Every other one-line form round-trips", "statement": "List items, fieldset entries, direct and spaced continuations, comments, section headings of any depth (plain, shallow copy, deep copy), copies and multiline field openers written with arbitrary horizontal padding are recognised as such with exactly the texts written.", "quantifier": "every admissible key/value/template, every operator length, every padding", "why_tests_cant": "unbounded texts, depths and paddings", "anchors": ["python/enolib/grammar_regex.py::Grammar.REGEX"]}
{"id": "C05", "title": "Multiline fields are verbatim", "statement": "A multiline field opened with n >= 2 dashes and a key, followed by any body none of whose lines is a terminator line, followed by its terminator, yields a field whose value is exactly the body text, byte for byte (no value if there is no body line).", "quantifier": "every dash count, key and body text", "why_tests_cant": "bodies are arbitrary text that may look like any other eno construct, including near-miss terminators", "anchors": ["python/enolib/analyzer.py::Analyzer.analyze (MULTILINE_FIELD branch)", "python/enolib/context.py::Context.value"]}
{"id": "C06", "title": "Horizontal white space around a line never matters", "statement": "Indenting a line or appending trailing horizontal white space (blanks, tabs, carriage returns, ...) changes neither the kind of the line nor any key, value or template read from it.", "quantifier": "every line, every horizontal white space prefix and suffix", "why_tests_cant": "any Unicode white space mixture, any line", "anchors": ["python/enolib/grammar_regex.py::Grammar.REGEX"]}
{"id": "C07", "title": "Analysis always terminates with a document or a ParseError", "statement": "For every input the analysis phase (everything parse does before copies are resolved) terminates and either produces a document or raises ParseError; it raises no KeyError, TypeError, IndexError or other incidental exception.", "quantifier": "every input string", "why_tests_cant": "an incidental crash may hide behind any of unboundedly many inputs and states", "anchors": ["python/enolib/analyzer.py::Analyzer.analyze", "python/enolib/analyzer.py::Analyzer._tokenize_error_context"]}
{"id": "C08", "title": "No content is silently dropped", "statement": "When analysis succeeds, every character of the input that is not white space lies on the line range of some element, item, entry, continuation, comment, multiline value line or multiline terminator reachable from the document or from the collected meta comments.", "quantifier": "every successfully analysed input and every character position", "why_tests_cant": "a lost line can occur at any position in any context", "anchors": ["python/enolib/analyzer.py::Analyzer.analyze"]}
{"id": "C09", "title": "Instructions are ordered and disjoint", "statement": "In every analysed document the instructions, read in document order, have strictly increasing line numbers and pairwise disjoint, increasing source ranges, so no two distinct instructions share a line.", "quantifier": "every input, every pair of instructions", "why_tests_cant": "pairs of instructions in arbitrarily large documents", "anchors": ["python/enolib/analyzer.py::Analyzer.analyze"]}
{"id": "C10", "title": "Ranges are faithful", "statement": "For every instruction of every analysed document each reported range lies within the input and within the instruction line range, and the stored key, value, template and comment texts equal the input slices at their ranges; the ranges an instruction has are exactly those of its kind, and the slice at a range is what its name says (the operator itself, a trimmed text on one line, the same backticks before and after an escaped key).", "quantifier": "every input, instruction and range", "why_tests_cant": "offsets depend on all preceding text", "anchors": ["python/enolib/analyzer.py::Analyzer.analyze", "python/enolib/grammar_regex.py::Grammar"]}
{"id": "C11", "title": "Line numbers are the true line numbers", "statement": "The line number of every instruction equals the number of line feeds preceding it in the input, and the line count of a successfully analysed document equals the number of line feeds plus one.", "quantifier": "every input and instruction", "why_tests_cant": "depends on all preceding text; violated only by particular multi-line matches", "anchors": ["python/enolib/analyzer.py::Analyzer.analyze", "python/enolib/grammar_regex.py::Grammar.SECTION", "python/enolib/grammar_regex.py::Grammar.LATE_DETERMINED"]}
{"id": "C12", "title": "Section nesting follows heading depth", "statement": "A heading with n hash signs starts a section whose parent is the nearest preceding section with n-1 hash signs (the document for n = 1) with no heading of fewer than n hash signs in between; sections nest exactly by depth.", "quantifier": "every input, every heading", "why_tests_cant": "arbitrary sequences of depths", "anchors": ["python/enolib/analyzer.py::Analyzer.analyze (SECTION branch)"]}
{"id": "C13", "title": "Hierarchy layer skips are rejected, exactly", "statement": "A heading more than one level deeper than the innermost open section is always rejected with a ParseError, and no other heading is rejected for its depth.", "quantifier": "every input, every heading", "why_tests_cant": "arbitrary depth histories", "anchors": ["python/enolib/analyzer.py::Analyzer.analyze (SECTION branch)", "python/enolib/errors/parsing.py::Parsing.section_hierarchy_layer_skip"]}
{"id": "C14", "title": "Elements belong to the section they are written under", "statement": "Every non-section element is a child of the nearest preceding section heading (the document if there is none), children lists are in document order, and every element is the child of exactly one section, its recorded parent.", "quantifier": "every input, every element", "why_tests_cant": "arbitrary nesting histories", "anchors": ["python/enolib/analyzer.py::Analyzer.analyze"]}
{"id": "C15", "title": "List items and fieldset entries attach to the preceding element or are rejected", "statement": "A list item (fieldset entry) is appended to the immediately preceding non-section element of the same section if and only if that element is a list (fieldset) or still empty; in every other situation the parse fails with the corresponding ParseError.", "quantifier": "every input, every item and entry", "why_tests_cant": "depends on the whole history since the last element", "anchors": ["python/enolib/analyzer.py::Analyzer.analyze (LIST_ITEM, FIELDSET_ENTRY branches)"]}
{"id": "C16", "title": "Continuations attach to the preceding continuable element or are rejected", "statement": "A line continuation is appended to the most recent field, empty element, list item or fieldset entry if nothing but blank lines, comments and continuations stands in between; otherwise the parse fails with a ParseError.", "quantifier": "every input, every continuation", "why_tests_cant": "depends on the whole history since the last element", "anchors": ["python/enolib/analyzer.py::Analyzer.analyze (CONTINUATION branches)"]}
{"id": "C17", "title": "Comments are attached to the next element or kept, never lost or duplicated", "statement": "Every comment line of a successfully analysed input ends up exactly once: in the comments of the element, item, entry or section that follows it with only comments in between, or else among the document-level meta comments.", "quantifier": "every input, every comment", "why_tests_cant": "comment blocks interact with every other line kind", "anchors": ["python/enolib/analyzer.py::Analyzer.analyze"]}
{"id": "C18", "title": "Elements have one consistent kind", "statement": "After analysis an element is a list iff it has items, a fieldset iff it has entries, a multiline field iff it was opened by dashes; never both; a field never has items or entries and an empty element has no value, items, entries or continuations.", "quantifier": "every input, every element", "why_tests_cant": "kinds mutate as later lines arrive", "anchors": ["python/enolib/analyzer.py::Analyzer.analyze"]}
{"id": "C19", "title": "Unterminated multiline fields are rejected, exactly", "statement": "A multiline field is accepted if and only if some later line, stripped of horizontal white space, consists of the same number of dashes, optional white space and the same key; the first such line terminates it.", "quantifier": "every input, every multiline field", "why_tests_cant": "the terminator may be arbitrarily far away and the key contains arbitrary (regex-special) characters", "anchors": ["python/enolib/analyzer.py::Analyzer.analyze (terminator_re)", "python/enolib/errors/parsing.py::Parsing.unterminated_multiline_field"]}
{"id": "C20", "title": "Continuations compose the value as documented", "statement": "The value of a field, list item or fieldset entry with continuations is the concatenation of its non-empty parts where a single blank separates two consecutive parts iff at least one spaced continuation occurs after the first of them up to the second; there is no value iff all parts are empty.", "quantifier": "every sequence of continuations", "why_tests_cant": "arbitrary interleavings of empty/non-empty and direct/spaced continuations", "anchors": ["python/enolib/context.py::Context.value"]}
{"id": "C21", "title": "Reading is idempotent", "statement": "Reading values, comments, entries, items or elements any number of times and in any order always returns the same results as a first read; the caches stored on instructions are never stale.", "quantifier": "every document and every history of reads", "why_tests_cant": "histories of reads are unbounded", "anchors": ["python/enolib/context.py::Context.value", "python/enolib/context.py::Context.comment", "python/enolib/context.py::Context.entries", "python/enolib/context.py::Context.items", "python/enolib/context.py::Context.elements"]}
{"id": "C22", "title": "Multi-line comments are dedented by their common indent", "statement": "The comment of an element with several comment lines is those lines from the first to the last non-empty one, joined by line feeds, each indented by its column minus the smallest column among non-empty lines; reading the comment of any element never fails.", "quantifier": "every comment block", "why_tests_cant": "arbitrary numbers of lines and indents; failing only for one corner shape", "anchors": ["python/enolib/context.py::Context.comment"]}
{"id": "C23", "title": "Copies need exactly one template", "statement": "A document containing copies of a non-section element (of a section) k parses only if exactly one non-section element (section) with key k other than copies of k itself exists; with none the parse fails with not-found, with two or more it fails with two-or-more-templates.", "quantifier": "every document", "why_tests_cant": "any number of candidates anywhere in the tree", "anchors": ["python/enolib/resolver.py::Resolver.index", "python/enolib/resolver.py::Resolver.resolve"]}
{"id": "C24", "title": "Copy cycles of non-section elements are rejected, exactly", "statement": "Following templates from a copied non-section element either ends at an element that is not a copy or revisits an element; the parse fails with a cyclic dependency error iff some copied element is of the second sort (given unique templates and compatible kinds).", "quantifier": "every document", "why_tests_cant": "template chains of unbounded length", "anchors": ["python/enolib/resolver.py::Resolver.resolve_non_section_element"]}
{"id": "C25", "title": "Copy resolution always terminates with a document or a ParseError", "statement": "For every analysed document copy resolution terminates and either succeeds or raises a ParseError.", "quantifier": "every document", "why_tests_cant": "cycles through nested, deep and shallow copies", "anchors": ["python/enolib/resolver.py::Resolver.resolve", "python/enolib/resolver.py::Resolver.resolve_section", "python/enolib/errors/parsing.py::Parsing.cyclic_dependency"]}
{"id": "C26", "title": "After parsing no copy is pending", "statement": "In every successfully parsed document every element that was written as a copy has been resolved against its template.", "quantifier": "every document", "why_tests_cant": "arbitrary dependency graphs", "anchors": ["python/enolib/resolver.py::Resolver.resolve"]}
{"id": "C27", "title": "A copied element without own content reads like its template", "statement": "After a successful parse, an element copied from a field or multiline field has the template value; one copied from a list without adding items has exactly the template items; one copied from a fieldset without adding entries has exactly the template entries, through chains of copies of any length.", "quantifier": "every document, every copied element", "why_tests_cant": "chains of copies of unbounded length", "anchors": ["python/enolib/resolver.py::Resolver.consolidate_non_section_elements", "python/enolib/resolver.py::Resolver.mirror", "python/enolib/context.py::Context.value", "python/enolib/context.py::Context.items", "python/enolib/context.py::Context.entries"]}
{"id": "C28", "title": "Extended lists append", "statement": "The items of a list copied from another list and followed by own items are the template items followed by the own items, through chains of any length.", "quantifier": "every document, every extended list", "why_tests_cant": "chains of unbounded length", "anchors": ["python/enolib/context.py::Context.items", "python/enolib/elements/list.py::List._instantiate_items"]}
{"id": "C29", "title": "Extended fieldsets override", "statement": "The entries of a fieldset copied from another fieldset and followed by own entries are the template entries whose keys are not redefined, in template order, followed by the own entries, through chains of any length.", "quantifier": "every document, every extended fieldset", "why_tests_cant": "chains of unbounded length", "anchors": ["python/enolib/context.py::Context.entries", "python/enolib/elements/fieldset.py::Fieldset._instantiate_entries"]}
{"id": "C30", "title": "Incompatible copies are rejected", "statement": "Adding list items to a copy of a field, multiline field or fieldset, or fieldset entries to a copy of a field, multiline field or list is always rejected with a ParseError.", "quantifier": "every document", "why_tests_cant": "template kind may itself be the result of a chain of copies", "anchors": ["python/enolib/resolver.py::Resolver.consolidate_non_section_elements"]}
{"id": "C31", "title": "Reading any copied non-section element terminates", "statement": "After a successful parse following mirror and extend links from any non-section element always terminates, so values, items and entries can be read.", "quantifier": "every document, every element", "why_tests_cant": "would need every dependency graph", "anchors": ["python/enolib/resolver.py::Resolver", "python/enolib/context.py::Context"]}
{"id": "C32", "title": "Reading the elements of any section terminates", "statement": "After a successful parse, reading the elements of any section terminates, whatever shallow or deep copies the document contains.", "quantifier": "every document, every section", "why_tests_cant": "would need every dependency graph; fails only for one cyclic deep-merge shape", "anchors": ["python/enolib/resolver.py::Resolver.consolidate_sections", "python/enolib/elements/section.py::Section._instantiate_elements"]}
{"id": "C33", "title": "Copied sections contain the template elements that are not overridden", "statement": "The elements of a section copied from another section are its own elements followed by exactly those template elements whose keys it does not define itself, through chains of any length.", "quantifier": "every document without deep copies, every section", "why_tests_cant": "chains of unbounded length and arbitrary key overlaps", "anchors": ["python/enolib/resolver.py::Resolver.consolidate_sections", "python/enolib/elements/section.py::Section._instantiate_elements"]}
{"id": "C34", "title": "Copying never modifies other elements", "statement": "Resolving copies leaves every element that is not itself a copy (and not a section merged by a deep copy) exactly as analysed: same kind, key, value, items, entries, elements and comments.", "quantifier": "every document, every element", "why_tests_cant": "aliasing bugs show only under particular sharing", "anchors": ["python/enolib/resolver.py::Resolver"]}
{"id": "C35", "title": "Raw output agrees with the typed API", "statement": "raw() on a list or fieldset lists exactly the items and entries that the typed accessors return, in the same order; raw() on a section or document succeeds and lists the elements the typed accessors return.", "quantifier": "every document, every list, fieldset and section", "why_tests_cant": "two independent implementations of copy semantics", "anchors": ["python/enolib/context.py::Context.raw", "python/enolib/context.py::Context.elements", "python/enolib/elements/fieldset.py::Fieldset._instantiate_entries", "python/enolib/elements/list.py::List._instantiate_items", "python/enolib/elements/section.py::Section._instantiate_elements"]}
{"id": "C36", "title": "Error selections lie in the document and are consistent", "statement": "Every ParseError raised while analysing selects a span with from.index <= to.index within the input, whose columns equal the index minus the begin of the line, on a line smaller than the line count.", "quantifier": "every rejected input", "why_tests_cant": "every error site and every preceding text", "anchors": ["python/enolib/errors/selections.py::cursor", "python/enolib/errors/selections.py::selection", "python/enolib/errors/parsing.py::Parsing"]}
{"id": "C37", "title": "Snippets can always be produced for parse errors", "statement": "For every input rejected during analysis the error, including its snippet, can be constructed by the text reporter: no index error and no other incidental exception while reporting.", "quantifier": "every rejected input", "why_tests_cant": "a crash inside error reporting may hide behind any document shape", "anchors": ["python/enolib/reporters/reporter.py::Reporter", "python/enolib/reporters/text_reporter.py::TextReporter", "python/enolib/errors/parsing.py::Parsing"]}
{"id": "C38", "title": "Snippets show the offending line with its number and its text", "statement": "The snippet of a parse error contains the reported line marked with `>`, with its one-based number and exactly its source text, and every other shown line carries its own number and its own source text.", "quantifier": "every rejected input", "why_tests_cant": "line bookkeeping depends on the whole document", "anchors": ["python/enolib/reporters/reporter.py::Reporter.snippet", "python/enolib/reporters/text_reporter.py::TextReporter._line"]}
{"id": "C39", "title": "HTML snippets escape document content", "statement": "No character of the document text or of the gutter reaches the HTML snippet unescaped: every <, >, &, double and single quote of the content is replaced by its entity and unescaping gives back the text.", "quantifier": "every document text", "why_tests_cant": "arbitrary text including markup", "anchors": ["python/enolib/reporters/html_reporter.py::HtmlReporter._markup"]}
{"id": "C40", "title": "Validation errors about a section can always be reported", "statement": "Raising a missing-element or element error about any section or element of any successfully parsed document succeeds in building the snippet.", "quantifier": "every document, every section", "why_tests_cant": "crashes only for particular sequences of element kinds", "anchors": ["python/enolib/reporters/reporter.py::Reporter._tag_section", "python/enolib/reporters/reporter.py::Reporter._tag_element", "python/enolib/errors/validation.py::Validation.missing_element"]}
{"id": "C41", "title": "Snippet context window", "statement": "A line that no report tagged is shown only if it is within two lines of a tagged line; an omission marker is only placed where lines are omitted, and tagged lines are always shown.", "quantifier": "every set of tagged lines", "why_tests_cant": "arbitrary sets of tagged lines in documents of any size", "anchors": ["python/enolib/reporters/reporter.py::Reporter.snippet"]}
{"id": "C42", "title": "Single-element accessors", "statement": "section.field(key), .fieldset(key), .list(key), .section(key), .empty(key), .element(key) return the unique element with that key if there is exactly one and its kind fits; raise ValidationError if there are several or the kind does not fit; and if there is none raise for required access, return None for optional access and a missing-object otherwise.", "quantifier": "every section, every key", "why_tests_cant": "arbitrary documents and keys", "anchors": ["python/enolib/elements/section.py::Section._field", "python/enolib/elements/section.py::Section._element", "python/enolib/elements/section.py::Section._section", "python/enolib/elements/section.py::Section._list", "python/enolib/elements/section.py::Section._fieldset", "python/enolib/elements/section.py::Section._empty"]}
{"id": "C43", "title": "Keyed element lists", "statement": "elements(key) returns exactly the elements of elements() with that key, in the same order; the keyed index and the plain list always agree.", "quantifier": "every section, every key", "why_tests_cant": "arbitrary documents and keys", "anchors": ["python/enolib/elements/section.py::Section._elements", "python/enolib/elements/section.py::Section._instantiate_elements", "python/enolib/elements/fieldset.py::Fieldset._instantiate_entries"]}
{"id": "C44", "title": "Missing objects answer optionally and fail once required", "statement": "On a missing-object obtained through any chain of accessors, every optional read gives None or an empty list and every required read raises a ValidationError about the outermost missing element of the chain.", "quantifier": "every accessor chain", "why_tests_cant": "chains of unbounded length", "anchors": ["python/enolib/elements/missing/missing_element_base.py::MissingElementBase", "python/enolib/elements/missing/missing_section.py::MissingSection", "python/enolib/elements/section.py::Section._missing_error"]}
{"id": "C45", "title": "Loaders are applied exactly to present values", "statement": "A loader is called exactly once with the exact value iff there is a value; a ValueError it raises becomes a ValidationError; its result is returned unchanged; without a value required access raises and optional access returns None without calling the loader.", "quantifier": "every element, every loader", "why_tests_cant": "arbitrary loaders", "anchors": ["python/enolib/elements/value_element_base.py::ValueElementBase._value", "python/enolib/elements/element_base.py::ElementBase._comment"]}
{"id": "C46", "title": "assert_all_touched is exact", "statement": "assert_all_touched() on a section passes iff every element of it (recursively through sections, fieldset entries and list items) has been touched by the accesses made so far; otherwise it raises a validation error about an untouched one. The same for fieldsets and their entries.", "quantifier": "every document and every history of accesses", "why_tests_cant": "histories of accesses are unbounded", "anchors": ["python/enolib/elements/section.py::Section.assert_all_touched", "python/enolib/elements/section_element.py::SectionElement._untouched", "python/enolib/elements/fieldset.py::Fieldset._untouched", "python/enolib/elements/list.py::List._untouched"]}
{"id": "C47", "title": "An element is yielded as one kind only", "statement": "Once an element has been yielded as empty, field, fieldset or list, yielding it as a different one of these kinds raises TypeError and yielding it again as the same kind returns the same object, whatever happened in between.", "quantifier": "every element, every history of casts", "why_tests_cant": "unbounded histories of casts", "anchors": ["python/enolib/elements/section_element.py::SectionElement.to_empty", "python/enolib/elements/section_element.py::SectionElement.to_field", "python/enolib/elements/section_element.py::SectionElement.to_fieldset", "python/enolib/elements/section_element.py::SectionElement.to_list", "python/enolib/elements/section_element.py::SectionElement.to_section"]}
{"id": "C48", "title": "yields_x predicts to_x", "statement": "For a fresh element yields_x() is true iff to_x() does not raise.", "quantifier": "every element", "why_tests_cant": "every element kind, before and after copy resolution", "anchors": ["python/enolib/elements/section_element.py::SectionElement"]}
{"id": "C49", "title": "Lookup by line finds the element written on that line", "statement": "lookup(line=n) returns, for every line that carries an element, item, entry or section heading, exactly that element.", "quantifier": "every document, every line", "why_tests_cant": "positions in arbitrarily nested documents", "anchors": ["python/enolib/lookup.py::check_in_section_by_line", "python/enolib/lookup.py::lookup"]}
{"id": "C50", "title": "Lookup by index finds the element written at that position", "statement": "lookup(index=i) returns, for every index on the line of an element, item, entry or section heading, exactly that element.", "quantifier": "every document, every index", "why_tests_cant": "positions in arbitrarily nested documents", "anchors": ["python/enolib/lookup.py::check_in_section_by_index", "python/enolib/lookup.py::lookup"]}
{"id": "C51", "title": "Lookup on continuation lines finds the continued element", "statement": "lookup on a continuation line (or inside a multiline field) returns the field, item or entry it belongs to.", "quantifier": "every document, every continuation line", "why_tests_cant": "positions in arbitrary documents; wrong only for the last item or entry", "anchors": ["python/enolib/lookup.py::check_field_by_line", "python/enolib/lookup.py::check_list_by_line", "python/enolib/lookup.py::check_fieldset_by_line"]}
{"id": "C52", "title": "Lookup is total on the document range and rejects everything else", "statement": "lookup(line, column) raises IndexError exactly for lines outside 0..line_count-1, lookup(index) exactly for indices outside 0..len(input); otherwise they return a result. (Without a column a line that carries an instruction is a TypeError.)", "quantifier": "every document, every position", "why_tests_cant": "every position in every document", "anchors": ["python/enolib/lookup.py::lookup"]}
{"id": "C53", "title": "Exactly the well-copied documents load", "statement": "A document that analyses parses iff each copied name has exactly one candidate, no non-section element is its own template in the end, own items and entries go with what they extend, and no section has to be resolved before itself (through templates and subsections).", "quantifier": "every document", "why_tests_cant": "chains and nestings of copies are unbounded; tests see a few shapes", "anchors": ["python/enolib/resolver.py::Resolver.resolve", "python/enolib/resolver.py::Resolver.resolve_section", "python/enolib/resolver.py::Resolver.resolve_non_section_element", "python/enolib/resolver.py::Resolver.index"]}
{"id": "C54", "title": "Copies inherit comments", "statement": "After a successful parse the comment of an element is its own if it has one, otherwise that of its template, through chains of copies of any length; no comment is invented.", "quantifier": "every document, every element that no deep merge can touch", "why_tests_cant": "chains of copies are unbounded; tests see a few shapes", "anchors": ["python/enolib/resolver.py::Resolver.consolidate_non_section_elements", "python/enolib/resolver.py::Resolver.consolidate_sections", "python/enolib/context.py::Context.comment"]}
{"id": "C55", "title": "Lookup between elements finds the surrounding section", "statement": "Anywhere in a document lookup returns the last element that begins at or before the position, one of its items or entries, or the section it is in; after the last line of an element and before the next one it returns the section.", "quantifier": "every document, every line and every index", "why_tests_cant": "positions between elements of arbitrarily nested documents", "anchors": ["python/enolib/lookup.py::check_in_section_by_line", "python/enolib/lookup.py::check_in_section_by_index", "python/enolib/lookup.py::lookup"]}
{"id": "C56", "title": "Lookup reports ranges of comments that belong to no element", "statement": "lookup(line, column) on a comment that belongs to no element reports whether the column is in the comment or its operator (by index it never does).", "quantifier": "every document, every such comment", "why_tests_cant": "arbitrary documents with comments anywhere", "anchors": ["python/enolib/lookup.py::lookup"]}
{"id": "C57", "title": "The terminal reporter reports every parse error", "statement": "Parsing with reporter=TerminalReporter an input that is rejected raises ParseError with a snippet, as it does with the other reporters.", "quantifier": "every input", "why_tests_cant": "tests only ever use the default reporter with a handful of inputs", "anchors": ["python/enolib/reporters/terminal_reporter.py::TerminalReporter._line", "python/enolib/analyzer.py::Analyzer._tokenize_error_context"]}
{"id": "C58", "title": "Lines next to a tagged line are shown", "statement": "Every line within two lines of a tagged line of a snippet is shown as context (the converse of the window of C41).", "quantifier": "every context, every set of tagged lines", "why_tests_cant": "positions of tagged lines and lengths of documents are unbounded", "anchors": ["python/enolib/reporters/reporter.py::Reporter.snippet"]}
{"id": "C59", "title": "Snippets of element errors mark exactly the element", "statement": "The snippet of an error about an element, an item or an entry emphasises its first line and indicates exactly its other lines (of a section: up to the last line of the last element in it); the selection reaches from the beginning of the first to the end of the last line.", "quantifier": "every document, every element that can be reported at all (see C40)", "why_tests_cant": "elements of arbitrary size and nesting", "anchors": ["python/enolib/reporters/reporter.py::Reporter.report_element", "python/enolib/reporters/reporter.py::Reporter._tag_section", "python/enolib/errors/selections.py::select_element", "python/enolib/errors/selections.py::last_in"]}
{"id": "C60", "title": "Errors about keys, values and comments point at them", "statement": "The selection of an error about a key, value or comment is exactly that key, value (one line, continued or multiline; of a copy its key) or comment; that of a missing value is the gap behind the operator or template, that of a missing comment the empty place before the line. The snippet marks exactly the lines concerned. comment_error without comments and key_error on an item raise KeyError, missing_value on a list, fieldset or section UnboundLocalError.", "quantifier": "every document, every element, item and entry, every message", "why_tests_cant": "keys, values, comments and their positions are arbitrary; tests see a few literal positions", "anchors": ["python/enolib/errors/validation.py::Validation.key_error", "python/enolib/errors/validation.py::Validation.value_error", "python/enolib/errors/validation.py::Validation.comment_error", "python/enolib/errors/validation.py::Validation.missing_comment", "python/enolib/errors/validation.py::Validation.missing_value", "python/enolib/errors/selections.py::select_comments", "python/enolib/errors/selections.py::select_key", "python/enolib/errors/selections.py::selection", "python/enolib/reporters/reporter.py::Reporter.report_comments"]}
{"id": "C61", "title": "Fieldset accessors return exactly the entries with the key", "statement": "entries(key) returns the objects of all entries with the key in order (without a key all); entry, optional_entry and required_entry return the only one, raise if there are several, and if there is none raise for required_entry or after all_entries_required() and otherwise return None.", "quantifier": "every document, every sequence of earlier calls, every fieldset and key", "why_tests_cant": "numbers of entries, keys and the calls made before are unbounded", "anchors": ["python/enolib/elements/fieldset.py::Fieldset._entry", "python/enolib/elements/fieldset.py::Fieldset._entries", "python/enolib/elements/fieldset.py::Fieldset.entries", "python/enolib/elements/fieldset.py::Fieldset.entry"]}
{"id": "C62", "title": "Errors made by elements call the message function once with what it is about", "statement": "error, key_error, value_error and comment_error use a text as it is; a function is called exactly once, with the element, its key, the value the document says or its comment. The error that is returned is about that element, whatever the function does; nothing is touched by it.", "quantifier": "every document, every sequence of earlier calls, every object, every message or function that uses the API", "why_tests_cant": "functions and call sequences are arbitrary", "anchors": ["python/enolib/elements/element_base.py::ElementBase.error", "python/enolib/elements/element_base.py::ElementBase.key_error", "python/enolib/elements/element_base.py::ElementBase.comment_error", "python/enolib/elements/value_element_base.py::ValueElementBase.value_error"]}
{"id": "C63", "title": "all_elements_required reaches all sections and fieldsets", "statement": "all_elements_required(b) sets the flag of the section, of all sections and fieldsets in it at any depth and of those made later, and of nothing else, and touches nothing. (It raises AttributeError if some section or fieldset in it was not accessed yet.)", "quantifier": "every document, every sequence of earlier calls, every section", "why_tests_cant": "nesting and call sequences are unbounded", "anchors": ["python/enolib/elements/section.py::Section.all_elements_required", "python/enolib/elements/fieldset.py::Fieldset.all_entries_required", "python/enolib/elements/section_element.py::SectionElement.to_section", "python/enolib/elements/section_element.py::SectionElement.to_fieldset"]}
{"id": "C64", "title": "parent() returns the object an element was obtained from", "statement": "parent() of an entry returns its fieldset, of an item its list, of a field, empty, list or fieldset its section; the document raises KeyError and every other section returns None. What is made of an element returned by lookup was not obtained from anything: parent() of lists and fieldsets then returns a new object for their section, that of fields and empties raises AttributeError.", "quantifier": "every document, every sequence of earlier calls, every object", "why_tests_cant": "nesting and call sequences are unbounded", "anchors": ["python/enolib/elements/section.py::Section.parent", "python/enolib/elements/fieldset.py::Fieldset.parent", "python/enolib/elements/list.py::List.parent"]}
{"id": "C65", "title": "touch() touches exactly what is in the element", "statement": "touch() touches the object, all objects made in it at any depth and all their items and entries, and nothing else; on an element that was not used as something yet it does nothing.", "quantifier": "every document, every sequence of earlier calls, every object", "why_tests_cant": "nesting and call sequences are unbounded", "anchors": ["python/enolib/elements/section.py::Section.touch", "python/enolib/elements/fieldset.py::Fieldset.touch", "python/enolib/elements/list.py::List.touch", "python/enolib/elements/section_element.py::SectionElement.touch"]}
{"id": "C66", "title": "Parse errors say what is wrong with which line", "statement": "What the message of a ParseError says about the input is so (which line is an item, entry, continuation, heading or nothing that it must not be, which key is not closed, which multiline field has no end, which template is missing, ambiguous or cyclic), the selection is exactly the line or text concerned, and the snippet emphasises that line and indicates or questions exactly the other lines concerned.", "quantifier": "every input that is rejected by parse", "why_tests_cant": "inputs and the places of the errors in them are arbitrary; tests see one literal input per message", "anchors": ["python/enolib/errors/parsing.py::Parsing", "python/enolib/analyzer.py::Analyzer.analyze", "python/enolib/resolver.py::Resolver.resolve"]}
{"id": "C67", "title": "Errors about several, missing and mistyped elements have the key and point at the right lines", "statement": "The error that is raised when several elements are found where one was expected has the message for that with the key, selects the first of them, emphasises their first lines and indicates their other lines. That for a missing element has the message with the key, selects the end of the heading or first line of what it is missing in (the beginning of the document), and questions or indicates exactly the lines where it is missed.", "quantifier": "every document, every list of elements, items and entries, every section, fieldset or list, every key and message", "why_tests_cant": "numbers, sizes and places of the elements are unbounded", "anchors": ["python/enolib/errors/validation.py::Validation.unexpected_multiple_elements", "python/enolib/errors/validation.py::Validation.missing_element", "python/enolib/errors/validation.py::Validation.unexpected_element_type", "python/enolib/reporters/reporter.py::Reporter.report_elements", "python/enolib/reporters/reporter.py::Reporter.report_missing_element"]}
{"id": "C68", "title": "Documents round-trip", "statement": "A document without copies - fields, multiline fields, empty elements, lists, fieldsets, continuations, comments and nested sections - written in any admissible way (white space, blank lines, unassociated comments, escaped or unescaped keys, any number of dashes, backticks) is accepted, and raw() shows exactly what was written, whatever was read before. Two documents that can be written as the same text look the same, and every document with trimmed keys and texts can be written.", "quantifier": "every document tree, every way of writing it", "why_tests_cant": "documents are arbitrarily large and nested and can be written in unboundedly many ways", "anchors": ["python/enolib/analyzer.py::Analyzer.analyze", "python/enolib/grammar_regex.py::Grammar.REGEX", "python/enolib/context.py::Context.raw", "python/enolib/context.py::Context.value", "python/enolib/context.py::Context.comment"]}
{"id": "C69", "title": "Lists give their items", "statement": "items() of a list gives one item object per item of the document, copied ones first, in order, each with the list as its parent, and the same objects every time; length() is their number; a list made of an empty element has none. Both mark the list as touched.", "quantifier": "every document, every sequence of earlier calls, every list object", "why_tests_cant": "documents, copies and call sequences are unbounded", "anchors": ["python/enolib/elements/list.py::List.items", "python/enolib/elements/list.py::List.length", "python/enolib/elements/list.py::List._items", "python/enolib/elements/list.py::List._instantiate_items"]}
{"id": "C70", "title": "What is written under some keys is read under them", "statement": "In a document written in any admissible way, required_section(...) along keys that occur once at their levels reaches the section; there required_field(key) gives the text and comment that were written, required_list(key) the texts of all items in order, required_fieldset(key).required_entry(key) the text of the entry; optional access to a key that was not written gives nothing and required access raises. All this whatever the program did before and in between.", "quantifier": "every document without copies, every way of writing it, every route of keys, every program before and in between", "why_tests_cant": "documents, ways of writing and programs are unbounded", "anchors": ["python/enolib/elements/section.py::Section._section", "python/enolib/elements/section.py::Section._field", "python/enolib/elements/section.py::Section._list", "python/enolib/elements/section.py::Section._fieldset", "python/enolib/elements/fieldset.py::Fieldset._entry", "python/enolib/analyzer.py::Analyzer.analyze"]}
{"id": "C71", "title": "A terminal shows the snippet of the text reporter in colours", "statement": "For any report about a document the terminal reporter prints something exactly if no shown line has the operator of a deep copy. Read as a terminal reads it, that is the same lines with the same numbers and marks as with the text reporter, every character of a line being there once, with the look of the range that it is in (keys and templates bold, values dim, operators white, comments grey) and a gutter that depends on the mark.", "quantifier": "every document without escape characters, every report, every source", "why_tests_cant": "documents and reports are unbounded", "anchors": ["python/enolib/reporters/terminal_reporter.py::TerminalReporter._line", "python/enolib/reporters/terminal_reporter.py::TerminalReporter._print", "python/enolib/reporters/terminal_reporter.py::TerminalReporter.__init__"]}
{"id": "C72", "title": "The reporter only changes the snippet", "statement": "Whether a document is accepted, with which result, or with which text and selection an error is raised does not depend on the reporter, the source or the messages in snippets (as long as the reporter does not fail itself, which only the terminal reporter does).", "quantifier": "every input, every two choices of options, every validation error", "why_tests_cant": "inputs and options are unbounded", "anchors": ["python/enolib/errors/parsing.py::Parsing", "python/enolib/errors/validation.py::Validation", "python/enolib/context.py::Context"]}
{"id": "C73", "title": "Deep copies merge sections", "statement": "A section of a deep copy shows its own elements, then those that the section with the same key in the template shows and whose keys it does not define, and so on at every level. Reading a section fails exactly if following what it is merged with ends in a circle, and never in documents without such circles.", "quantifier": "every accepted document, every section of it", "why_tests_cant": "nesting, copies of copies and the order in which they are resolved are unbounded", "anchors": ["python/enolib/resolver.py::Resolver.consolidate_sections", "python/enolib/resolver.py::Resolver.resolve_section", "python/enolib/elements/section.py::Section._instantiate_elements"]}
{"id": "C74", "title": "Messages are unambiguous in every language", "statement": "In each of the three languages every message that parse can raise has a text; two different messages (kind, line number, key) never have the same text, whatever the keys are. The language, the reporter and the source do not change which inputs are accepted, and the same input is rejected with the translation of the same message and with the same selection. The whole message is text, blank line and snippet. The texts are those of the message files, with line number and key in place of the names in braces.", "quantifier": "every locale, every message with every line number and key, every input", "why_tests_cant": "keys are arbitrary strings that may look like parts of messages", "anchors": ["python/enolib/messages/en.py", "python/enolib/messages/de.py", "python/enolib/messages/es.py", "python/enolib/error_types.py::Error", "python/enolib/errors/parsing.py::Parsing", "python/enolib/context.py::Context.__init__"]}
{"id": "C75", "title": "Programs do not depend on the reporter, and the errors that they get are in order", "statement": "A program that uses the API - any sequence of calls that depends on earlier results and errors, with loaders and message functions that use the API themselves - touches and creates the same objects and gets the same results and errors, apart from snippets, with every language, source and reporter (the terminal reporter may fail). Each validation error that it gets is about something that is in the document, has a text in every language, and selects a part of the document: from a position on a line to one on the same or a later line, columns counted from the beginning of the line.", "quantifier": "every accepted document, every program, every two choices of options", "why_tests_cant": "programs are arbitrary trees of calls with arbitrary functions in them; tests run fixed calls with one reporter", "anchors": ["python/enolib/errors/validation.py::Validation", "python/enolib/elements/element_base.py", "python/enolib/elements/section.py::Section", "python/enolib/reporters/reporter.py::Reporter"]}
{"id": "C76", "title": "Registered loaders", "statement": "After any calls of register, optional_n_value() and the other methods for a name n do, on every object, what optional_value(f) and so on do with the function f that was registered last under n; on missing objects they do what they do with any loader. Different names give different methods. Registering changes no other attribute of any class, and none of the methods that the library comes with.", "quantifier": "every sequence of calls of register with functions, dictionaries and named arguments, every name, every object", "why_tests_cant": "names are arbitrary strings that may look like parts of other names", "anchors": ["python/enolib/register.py::register", "python/enolib/register.py::_register", "python/enolib/elements/fieldset.py::Fieldset", "python/enolib/elements/list.py::List"]}
{"id": "C77", "title": "Looking at objects does not change them", "statement": "repr of any object returns a text on one line with its class, its key and its value (shortened to 14 characters) or the number of its items, entries or elements as the document says. It touches nothing and changes nothing that a program could notice.", "quantifier": "every accepted document, every object that a program can get, every program before", "why_tests_cant": "documents and programs are unbounded; tests look at a few objects once", "anchors": ["python/enolib/elements/value_element_base.py::ValueElementBase._print_value", "python/enolib/elements/section.py::Section.__repr__", "python/enolib/elements/list.py::List.__repr__", "python/enolib/elements/fieldset.py::Fieldset.__repr__", "python/enolib/elements/element.py::Element.__repr__"]}
{"id": "C78", "title": "The element that lookup returns is the element in the document", "statement": "On the line of an element, item, entry or section heading lookup returns an element that can be made into the kind of thing that is written there and into nothing else; its key and value are those in the document. Everything said about objects also holds for those made of it.", "quantifier": "every accepted document, every line with an element, item, entry or section heading, every column, every program after it", "why_tests_cant": "documents and programs are unbounded; tests only look at the raw representation of what lookup returns", "anchors": ["python/enolib/lookup.py::lookup", "python/enolib/elements/element.py::Element", "python/enolib/elements/section_element.py::SectionElement"]}
{"id": "C79", "title": "Only what the lines say matters", "statement": "Two documents whose lines say the same, apart from blank lines, indentation, white space between the parts of a line, the escaping of keys and comments that belong to no element, are both accepted or both rejected. If accepted they have the same elements, and all values, comments, items, entries, elements and raw representations are the same, in whatever order they are asked for. If rejected the messages differ at most in the line number.", "quantifier": "every pair of texts whose lines say the same; in particular every text and any white space in front of any of its lines", "why_tests_cant": "texts and layouts are unbounded; layout independence is a relation between infinitely many pairs of inputs that no test compares", "anchors": ["python/enolib/analyzer.py::Analyzer.analyze", "python/enolib/resolver.py::Resolver.resolve", "python/enolib/context.py::Context", "python/enolib/grammar_regex.py::Grammar"]}
{"id": "C80", "title": "Programs do not depend on the layout of the document", "statement": "If the lines of two documents say the same, apart from blank lines, indentation, white space between the parts of a line, the escaping of keys and comments that belong to no element, then a program that uses the API (with loaders, message functions, error handling) and looks at the messages of errors but not at their snippets and selections gets the same results, the same exceptions and validation errors with the same messages from both, and leaves the same objects touched.", "quantifier": "every pair of texts whose lines say the same, every program and every pair of reporters (text, HTML) and languages", "why_tests_cant": "programs, texts and layouts are unbounded; that no error message depends on where something is written is a relation between infinitely many pairs of runs", "anchors": ["python/enolib/errors/validation.py", "python/enolib/elements/section.py::Section", "python/enolib/elements/element_base.py", "python/enolib/context.py::Context"]}
{"id": "C81", "title": "Python exceptions happen only for known reasons", "statement": "A call of a method of an element, or of a missing element, ends with a result, a validation error, a value rejected by a loader, an exception of a function that was passed, or one of these: AttributeError if the class does not have the method, if all_elements_required meets a section or fieldset that was not yielded, or for the parent of a field or empty that was made of what lookup returned; KeyError for complaints about the document itself, its key and its parent, the key of an item, a comment that is not there or is one empty line, and repr of an Element for an item or the document; TypeError if the element was yielded as another kind, if a fieldset has an untouched entry when all must be touched, or if the reporter loses track in a section where something follows an empty element or a copied fieldset. Reading values, items and entries, touching and asking for kinds never end with a Python exception; only raw ends with others (RecursionError). In documents without deep copies raw ends, given enough stack, with nothing but KeyError if some comment is one empty line and TypeError if some section is a copy without own elements; raw of the document returns exactly if there is neither, at any time of any program. If there is neither and the reporter cannot lose track, a call ends with a Python exception only if a function that was passed raised it, if it asks for what is not there (a method, the parent of the document or of what lookup found, the key of an item or of the document, a comment to complain about), or if elements were yielded as another kind, not yielded or not touched.", "quantifier": "every accepted document in which no section is merged with itself, the text and HTML reporters, every object in every state a program can reach, every method and every function passed", "why_tests_cant": "states and documents are unbounded; tests check that particular errors are raised, not that nothing else is", "anchors": ["python/enolib/elements/element_base.py", "python/enolib/elements/section.py::Section", "python/enolib/elements/fieldset.py::Fieldset", "python/enolib/elements/list.py::List", "python/enolib/elements/section_element.py::SectionElement", "python/enolib/errors/validation.py::Validation", "python/enolib/elements/missing/missing_element_base.py::MissingElementBase"]}
{"id": "C82", "title": "What Python code sees of raw and of the exceptions with texts", "statement": "Whenever raw() returns something it is a dictionary of one fixed form: type, comment only for elements with comment lines, key, and value, items, entries or elements, depending on the type; inside there are only dictionaries of the form that belongs there; type is never None. The IndexError of lookup names the line or index that was asked for and the last one that is accepted; the TypeError of to_empty, to_field, to_fieldset and to_list names the kind as which the element was and still can be yielded and the kind that was asked for. Different such situations have different texts, and the texts come exactly with these exceptions.", "quantifier": "every accepted document, every object in every state a program can reach, every integer as line and index", "why_tests_cant": "documents, states and numbers are unbounded; tests check two texts and a few dictionaries", "anchors": ["python/enolib/context.py::Context.raw", "python/enolib/constants.py::InstructionType.pretty", "python/enolib/lookup.py::lookup", "python/enolib/elements/section_element.py::SectionElement"]}
{"id": "C83", "title": "The grammar of documents", "statement": "A text is accepted (up to the resolution of copies) if and only if its lines, read one by one and without blank lines and comments that belong to nothing, are the lines of a tree: elements with a text and continuations, items, entries or verbatim lines, copies with items or entries below them, and sections, each with its elements first and then its subsections, which have one more hash sign. There is at most one such tree. Whatever is read, keys, values, templates and comments are trimmed. A text without copies is parsed exactly if it has such a tree without copies, and raw then shows this tree, however the text is laid out.", "quantifier": "every text (for raw: every text without copies and without comments that are a single empty line, in every session)", "why_tests_cant": "texts and trees are unbounded; that nothing else is accepted, and that a text is never read in two ways, is a statement about all of them", "anchors": ["python/enolib/analyzer.py::Analyzer.analyze", "python/enolib/grammar_regex.py", "python/enolib/context.py::Context.raw"]}
{"id": "C84", "title": "What documents with copies mean", "statement": "A text whose lines are the lines of a tree is parsed if and only if the tree means something: each copied name has exactly one template in the whole document (of its kind: section or element, and itself no copy of that name), own items and entries go with what the template contains, and nothing needs its own meaning. What raw then shows is this meaning: a copy shows its own key, its own comment or else that of the template, and the contents of the template (except for entries and elements of keys it has itself) before its own. A tree means at most one thing, and every tree with trimmed texts can be written.", "quantifier": "every text and tree; for raw: in every session, without comments that are a single empty line, deep copies of sections and copies of sections without contents of their own (where the code deviates, see C21, C22)", "why_tests_cant": "documents, chains of copies and ways of writing them are unbounded", "anchors": ["python/enolib/analyzer.py::Analyzer.analyze", "python/enolib/context.py::Context.raw", "python/enolib/resolver.py::Resolver.resolve"]}
{"id": "C85", "title": "What documents with copies mean is what programs read", "statement": "In a document with copies, however it is written, required_section(...) along keys that occur once at their levels reaches the section with this meaning; there required_field(key) gives the text and comment that the document means (C84), required_list(key) the texts of all items, copied ones first, required_fieldset(key).required_entry(key) the text of the entry that is in force; access to a key that does not occur gives nothing or raises, and access to a single element of a key that occurs more than once raises. If everything with a key is of one kind, fields(key), lists(key), fieldsets(key) and sections(key) give one object for each, in the order of raw, that reads like what is meant, also in any one of several sections with the same key; if something with the key is of another kind (and not empty), they raise. All this whatever the program did before and in between.", "quantifier": "every tree without deep copies of sections and comments that are a single empty line, every text that says it, every route of keys, every program before and in between", "why_tests_cant": "documents, ways of writing and programs are unbounded", "anchors": ["python/enolib/elements/section.py::Section._section", "python/enolib/elements/section.py::Section._field", "python/enolib/elements/section.py::Section._list", "python/enolib/elements/section.py::Section._fieldset", "python/enolib/elements/fieldset.py::Fieldset._entry", "python/enolib/analyzer.py::Analyzer.analyze", "python/enolib/resolver.py::Resolver.resolve"]}
{"id": "C86", "title": "Comments do not matter", "statement": "Two texts whose lines say the same apart from comments and blank lines are the same document apart from comments. One is parsed if and only if the other is, and if not, the same error is reported. If so, they have the same elements, and values, items, entries and elements of each element are the same, and raw outputs are the same but for comments. In particular this is so if a comment is inserted in front of any line (with something behind it), for example between an element and its continuations, or between a list and its items. Programs that read neither comments nor raw, in no function that they pass either, and look at messages, but not at snippets and selections, do the same with both texts: they create and touch the same objects and get the same results and messages.", "quantifier": "every two texts that say the same apart from comments; every text, line and comment; every program that does not read comments", "why_tests_cant": "texts and places for comments are unbounded; comments are kept as pending while other lines are read, and given to copies of elements", "anchors": ["python/enolib/analyzer.py::Analyzer.analyze", "python/enolib/resolver.py::Resolver.resolve", "python/enolib/context.py::Context.raw"]}
{"id": "C87", "title": "Copies can be written out", "statement": "What raw shows of a document with copies is, as a dictionary, what raw shows of some document without copies if and only if wherever it shows sections they come after everything else. This is so in particular if no section is a copy, so copies of fields, lists and fieldsets can always be replaced by what they stand for. It is not so for all documents: a copy of a section with subsections that has a field of its own shows the subsections first.", "quantifier": "every tree with copies that means something, and every text that says it (for raw: without comments that are a single empty line, deep copies of sections and copies of sections without contents of their own)", "why_tests_cant": "it is about the existence of a text among all texts, for unbounded documents and chains of copies", "anchors": ["python/enolib/context.py::Context.raw", "python/enolib/context.py::Context.elements", "python/enolib/resolver.py::Resolver.resolve"]}
