{"claims": [
 {"property": "C01", "status": "proved", "theorems": ["Eno.C01_grammar_exact", "Eno.C01_lines_exact", "Eno.C01_groups_present"], "note": "backtracking regex equals the independent scanner for every input and position"},
 {"property": "C02", "status": "proved", "theorems": ["Eno.C02_field", "Eno.C02_field_line", "Eno.C02_empty_line"], "note": ""},
 {"property": "C03", "status": "proved", "theorems": ["Eno.C03_escaped_key_line", "Eno.C03_every_key_writable"], "note": ""},
 {"property": "C04", "status": "proved", "theorems": ["Eno.C04_list_item", "Eno.C04_empty_list_item", "Eno.C04_entry", "Eno.C04_empty_entry", "Eno.C04_copy", "Eno.C04_continuation", "Eno.C04_empty_continuation", "Eno.C04_comment", "Eno.C04_empty_comment", "Eno.C04_blank", "Eno.C04_heading", "Eno.C04_heading_copy", "Eno.C04_heading_escaped", "Eno.C04_multiline"], "note": "one theorem per kind of line"},
 {"property": "C05", "status": "proved", "theorems": ["Eno.C05_multiline", "Eno.C05_verbatim"], "note": "from written text to value, and for every multiline field of a loaded document"},
 {"property": "C06", "status": "proved", "theorems": ["Eno.C06_indentation", "Eno.C06_trailing", "Eno.C06_spaces", "Eno.C06_blank"], "note": ""},
 {"property": "C07", "status": "proved", "theorems": ["Eno.C07_total", "Eno.C07_one_reading", "Eno.C07_accepted_iff"], "note": ""},
 {"property": "C08", "status": "proved", "theorems": ["Eno.C08_nothing_dropped", "Eno.C08_reachable"], "note": ""},
 {"property": "C09", "status": "proved", "theorems": ["Eno.C09_ordered"], "note": ""},
 {"property": "C10", "status": "proved", "theorems": ["Eno.C10_ranges", "Eno.C10_texts", "Eno.C10_comments", "Eno.C10_operators", "Eno.C10_names", "Eno.C10_escapes", "Eno.C10_comment_names", "Eno.C10_apart", "Eno.C10_multiline_names"], "note": ""},
 {"property": "C11", "status": "partial", "theorems": ["Eno.C11_refuted", "Eno.C11_line_numbers_partial", "Eno.C11_neat_partial", "Eno.C11_at_most"], "note": "false of the code: whitespace in a key gap may span line feeds; refuted by a witness, proved for inputs where no instruction contains a line feed, which holds for every input whose lines are neat (a decidable condition on single lines); line numbers are never too large"},
 {"property": "C12", "status": "proved", "theorems": ["Eno.C12_depth", "Eno.C12_nesting"], "note": ""},
 {"property": "C13", "status": "proved", "theorems": ["Eno.C13_skip_rejected", "Eno.C13_only_skips"], "note": ""},
 {"property": "C14", "status": "proved", "theorems": ["Eno.C14_parent", "Eno.C14_children"], "note": ""},
 {"property": "C15", "status": "proved", "theorems": ["Eno.C15_C16_attached", "Eno.C15_item_legal", "Eno.C15_entry_legal", "Eno.C15_item_rejected", "Eno.C15_entry_rejected", "Eno.C15_only"], "note": ""},
 {"property": "C16", "status": "proved", "theorems": ["Eno.C15_C16_attached", "Eno.C16_continuation_legal", "Eno.C16_continuation_rejected", "Eno.C16_only"], "note": ""},
 {"property": "C17", "status": "proved", "theorems": ["Eno.C17_comments"], "note": ""},
 {"property": "C18", "status": "proved", "theorems": ["Eno.C18_kinds"], "note": ""},
 {"property": "C19", "status": "proved", "theorems": ["Eno.C19_first_terminator", "Eno.C19_accepted_iff", "Eno.C19_unterminated_rejected", "Eno.C19_only", "Eno.C19_recorded"], "note": ""},
 {"property": "C20", "status": "proved", "theorems": ["Eno.C20_value", "Eno.C20_none", "Eno.C20_first", "Eno.C20_next", "Eno.C20_last"], "note": ""},
 {"property": "C21", "status": "partial", "theorems": ["Eno.C21_idempotent_partial", "Eno.C21_answers", "Eno.C21_any_session", "Eno.C21_any_idempotent", "Eno.C21_any_outcome", "Eno.C21_askable", "Eno.C21_elements_iff", "Eno.C21_shaky", "Eno.El.C21_program_raw", "Eno.C21_unique", "Eno.C21_refuted"], "note": "false of the code for sections that extend a copied section without own elements (refuted by a witness); proved for every history of reads outside that case. Without deep copies the history may contain any reads at all (C21_any_session, C21_any_idempotent), and any read returns, raises KeyError because of an empty comment line or TypeError because of such a copy (C21_any_outcome). C21_elements_iff says, without deep copies, exactly for which sections elements is the same every time; for the others the first read raises TypeError and the next one does not (C21_shaky). C21_program_raw is about programs with objects: what they did before does not change what raw returns."},
 {"property": "C22", "status": "partial", "theorems": ["Eno.C22_comment_partial", "Eno.C22_left_out", "Eno.C22_raises", "Eno.C22_text", "Eno.C22_blank", "Eno.C22_refuted"], "note": "false of the code: KeyError if and only if the comment consists of a single empty line (C22_raises); every other comment is read as specified"},
 {"property": "C23", "status": "partial", "theorems": ["Eno.C23_unique", "Eno.C23_two", "Eno.C23_none_rejected", "Eno.C23_none_partial", "Eno.C23_refuted"], "note": "with no candidate the parse always fails, but with KeyError instead of not-found if another copy depends on that copy (refuted by a witness)"},
 {"property": "C24", "status": "proved", "theorems": ["Eno.C24_dichotomy", "Eno.C24_sound", "Eno.C24_iff"], "note": ""},
 {"property": "C25", "status": "partial", "theorems": ["Eno.C25_partial", "Eno.C25_parse_error", "Eno.C25_refuted"], "note": "false of the code: KeyError and UnboundLocalError are possible; refuted by witnesses, termination and the exact circumstances proved"},
 {"property": "C26", "status": "proved", "theorems": ["Eno.C26_resolved"], "note": ""},
 {"property": "C27", "status": "proved", "theorems": ["Eno.C27_value", "Eno.C27_items", "Eno.C27_entries"], "note": ""},
 {"property": "C28", "status": "proved", "theorems": ["Eno.C28_append"], "note": ""},
 {"property": "C29", "status": "proved", "theorems": ["Eno.C29_override"], "note": ""},
 {"property": "C30", "status": "partial", "theorems": ["Eno.C30_rejected", "Eno.C30_parse_error", "Eno.C30_exact"], "note": "always rejected; with a ParseError if every copied name has a candidate (else KeyError is possible, see C25)"},
 {"property": "C31", "status": "proved", "theorems": ["Eno.C31_terminates"], "note": ""},
 {"property": "C32", "status": "partial", "theorems": ["Eno.C32_terminates_partial", "Eno.C73_terminates", "Eno.C32_refuted"], "note": "false of the code: a deep merge can close a cycle of links, refuted by a witness for every recursion depth; proved for sections no deep merge can touch and for all documents without circles of merges"},
 {"property": "C33", "status": "proved", "theorems": ["Eno.C33_copied", "Eno.C33_own", "Eno.C33_undisturbed"], "note": "as stated for documents without deep copies; also for sections no deep merge can touch"},
 {"property": "C34", "status": "proved", "theorems": ["Eno.C34_elements", "Eno.C34_sections", "Eno.C34_own"], "note": ""},
 {"property": "C35", "status": "partial", "theorems": ["Eno.C35_lists_partial", "Eno.C35_sections_partial", "Eno.C35_raw_iff", "Eno.C35_raw_raises", "Eno.C35_refuted", "Eno.C35_order_refuted"], "note": "false of the code: TypeError for sections copied without own elements, KeyError for single empty comment lines; proved otherwise, for sections up to order. C35_raw_iff: without deep copies, these are exactly the documents that raw cannot show; C35_raw_raises says what is raised."},
 {"property": "C53", "status": "proved", "theorems": ["Eno.C53_loads_iff", "Eno.C53_marked_iff"], "note": ""},
 {"property": "C54", "status": "proved", "theorems": ["Eno.C54_inherited", "Eno.C54_defined", "Eno.C54_written"], "note": ""},
 {"property": "C49", "status": "proved", "theorems": ["Eno.C49_line"], "note": "With any column; also says which range is reported."},
 {"property": "C50", "status": "proved", "theorems": ["Eno.C50_index"], "note": "Also says which range is reported."},
 {"property": "C51", "status": "partial", "theorems": ["Eno.C51_further_partial", "Eno.C51_last", "Eno.C51_all", "Eno.C51_refuted"], "note": "False for continuations of the last item of a list or the last entry of a fieldset: the surrounding section is returned without a range, always (C51_last). Proved for all others (C51_all: there are no more) and for multiline fields, by line and by index."},
 {"property": "C52", "status": "proved", "theorems": ["Eno.C52_line", "Eno.C52_index", "Eno.C52_parse", "Eno.C52_no_column"], "note": "C52_no_column: calls without a column (or without any position) are TypeErrors."},
 {"property": "C55", "status": "proved", "theorems": ["Eno.C55_near_line", "Eno.C55_near_index", "Eno.C55_beyond_line", "Eno.C55_beyond_index"], "note": ""},
 {"property": "C56", "status": "proved", "theorems": ["Eno.C56_loose_comments", "Eno.C56_only_by_line"], "note": "C56_only_by_line: by index, and for comments of elements, no range is reported."},
 {"property": "C36", "status": "proved", "theorems": ["Eno.C36_selection"], "note": "Also for errors of the resolver. The line number is the true one for neat inputs (see C11), never too large for others."},
 {"property": "C37", "status": "proved", "theorems": ["Eno.C37_analysis", "Eno.C37_parse"], "note": "For the text and the HTML reporter; the terminal reporter is C57."},
 {"property": "C38", "status": "partial", "theorems": ["Eno.C38_refuted", "Eno.C38_emphasis", "Eno.C38_rows_partial"], "note": "The emphasised line is right for every input. False of the code for other rows: comments pending at the error are shown as empty lines (witness). Proved for neat inputs with comments excepted, and for errors of the resolver without exception."},
 {"property": "C39", "status": "proved", "theorems": ["Eno.C39_escape", "Eno.C39_html", "Eno.C39_source_refuted"], "note": "The name of the source is not escaped (witness)."},
 {"property": "C41", "status": "proved", "theorems": ["Eno.C41_window"], "note": ""},
 {"property": "C57", "status": "partial", "theorems": ["Eno.C57_terminal_fails", "Eno.C57_terminal_reports", "Eno.C57_terminal_deep_copy"], "note": "False of the code: KeyError for every input that the analysis rejects (proved for all), and for snippets with a deep copy operator (witness)."},
 {"property": "C58", "status": "partial", "theorems": ["Eno.C58_context_refuted", "Eno.C58_context_partial", "Eno.C58_exact"], "note": "False of the code: the lines after a tagged first line are not shown (witness). Proved for all other tagged lines; C58_exact says exactly which lines are shown."},
 {"property": "C40", "status": "partial", "theorems": ["Eno.C40_element", "Eno.C40_leaves", "Eno.C40_missing_section", "Eno.C40_missing_other", "Eno.C40_refuted"], "note": "False of the code: TypeError if something follows an element without anything (or a copied fieldset) in the section; refuted by a witness, and the sections for which this happens are characterised exactly. Never for anything but sections."},
 {"property": "C59", "status": "proved", "theorems": ["Eno.C59_marks", "Eno.C59_selection"], "note": ""},
 {"property": "C42", "status": "partial", "theorems": ["Eno.El.C42_none", "Eno.El.C42_several", "Eno.El.C42_element", "Eno.El.C42_other_kind", "Eno.El.C42_partial", "Eno.El.C42_yielded", "Eno.El.C42_refuted"], "note": "Any world that a program can reach. C42_partial leaves out elements that were yielded as another kind before; for these the claim is false (C42_refuted, C42_yielded: TypeError)."},
 {"property": "C43", "status": "proved", "theorems": ["Eno.El.C43_elements", "Eno.El.C43_same", "Eno.El.C43_kinds", "Eno.El.C43_other_kind"], "note": "Any world that a program can reach; also the accessors for several elements of a kind."},
 {"property": "C44", "status": "partial", "theorems": ["Eno.El.C44_required_partial", "Eno.El.C44_optional", "Eno.El.C44_chain", "Eno.El.C44_got", "Eno.El.C44_to", "Eno.El.C44_inside", "Eno.El.C44_repr", "Eno.El.C44_refuted"], "note": "False for required values of a missing list, which are an empty list (C44_refuted); proved for all other reads."},
 {"property": "C45", "status": "partial", "theorems": ["Eno.El.C45_value", "Eno.El.C45_comment_partial", "Eno.El.C45_blank", "Eno.El.C45_key", "Eno.El.C45_values"], "note": "Values and keys in full, for loaders that use the elements themselves. Comments as well, but a comment of a single empty line raises KeyError, required or not (C45_blank, see C22)."},
 {"property": "C46", "status": "partial", "theorems": ["Eno.El.C46_passes", "Eno.El.C46_partial", "Eno.El.C46_touch_refuted", "Eno.El.C46_entries_refuted", "Eno.El.circle_refuted"], "note": "That it passes only if all was used is proved for all documents; that it passes or raises about an unused element for documents in which no section is in the end merged with itself (see C32, C73), for others it is false: RecursionError (circle_refuted). Calling touch() first is not enough (C46_touch_refuted). For fieldsets it passes iff the entries were touched but raises TypeError otherwise (C46_entries_refuted)."},
 {"property": "C47", "status": "proved", "theorems": ["Eno.El.C47_same", "Eno.El.C47_other"], "note": "Any world, any program in between."},
 {"property": "C48", "status": "proved", "theorems": ["Eno.El.C48_yields", "Eno.El.C48_parts"], "note": "Any world that a program can reach."},
 {"property": "C60", "status": "proved", "theorems": ["Eno.C60_key", "Eno.C60_key_item", "Eno.C60_missing_comment", "Eno.C60_comment", "Eno.C60_comment_none", "Eno.C60_missing_value", "Eno.C60_missing_value_other", "Eno.C60_value_copy", "Eno.C60_value_multiline", "Eno.C60_value_multiline_none", "Eno.C60_value", "Eno.C60_value_text"], "note": "with the text and HTML reporters; the marks are stated for the text reporter"},
 {"property": "C61", "status": "proved", "theorems": ["Eno.El.C61_entries", "Eno.El.C61_none", "Eno.El.C61_one", "Eno.El.C61_several", "Eno.El.C61_contents"], "note": "entry() without required behaves as optional_entry(), because _entry has the default required=False"},
 {"property": "C62", "status": "partial", "theorems": ["Eno.El.C62_error", "Eno.El.C62_key", "Eno.El.C62_value", "Eno.El.C62_comment_partial", "Eno.El.C62_blank"], "note": "False of the code for comment_error with a function on a comment of a single empty line: KeyError (C62_blank, see C22)"},
 {"property": "C63", "status": "partial", "theorems": ["Eno.El.C63_flags", "Eno.El.C63_partial", "Eno.El.C63_new", "Eno.El.C63_fieldset", "Eno.El.circle_refuted"], "note": "El.C63_partial, that it returns or raises AttributeError, leaves out documents in which a section is in the end merged with itself (C32, C73), of which it is false: RecursionError (circle_refuted); the flags (El.C63_flags) are proved without restriction for calls that return"},
 {"property": "C64", "status": "proved", "theorems": ["Eno.El.C64_section", "Eno.El.C64_other", "Eno.El.C64_obtained", "Eno.El.C64_found"], "note": ""},
 {"property": "C65", "status": "partial", "theorems": ["Eno.El.C65_touch", "Eno.El.C65_element", "Eno.El.C65_returns_partial", "Eno.El.circle_refuted"], "note": "El.C65_returns_partial, that it returns, leaves out documents in which a section is in the end merged with itself (C32, C73), of which it is false: RecursionError (circle_refuted)"},
 {"property": "C66", "status": "proved", "theorems": ["Eno.C66_parse_error", "Eno.C66_unclosed"], "note": "the marks are stated for the text reporter"},
 {"property": "C67", "status": "proved", "theorems": ["Eno.C67_several", "Eno.C67_missing_section", "Eno.C67_missing_element", "Eno.C67_missing_document", "Eno.C67_type", "Eno.C67_unexpected"], "note": "with the text and HTML reporters; errors that cannot be made at all because of stuck sections are those of C40; the marks are stated for the text reporter"},
 {"property": "C68", "status": "proved", "theorems": ["Eno.C68_round_trip", "Eno.C68_unambiguous", "Eno.C68_expressible", "Eno.El.C68_program"], "note": "Documents without copies. C68_program is about the documents that programs (C80) have at hand."},
 {"property": "C69", "status": "proved", "theorems": ["Eno.El.C69_items", "Eno.El.C69_length", "Eno.El.C69_same", "Eno.El.C69_contents"], "note": "in any world that a program can reach"},
 {"property": "C70", "status": "proved", "theorems": ["Eno.El.C70_field", "Eno.El.C70_list", "Eno.El.C70_fieldset", "Eno.El.C70_section", "Eno.El.C70_missing"], "note": "documents without copies; keys that occur once at their level (for others see C42)"},
 {"property": "C71", "status": "proved", "theorems": ["Eno.C71_snippet", "Eno.C71_parse"], "note": "documents and sources without escape characters; that nothing is printed with the operator of a deep copy is part of the statement (see C57)"},
 {"property": "C72", "status": "proved", "theorems": ["Eno.C72_parse", "Eno.C72_validation"], "note": ""},
 {"property": "C73", "status": "partial", "theorems": ["Eno.C73_elements_partial", "Eno.C73_readable_partial", "Eno.C73_terminates", "Eno.C73_source", "Eno.C73_subsection_partial", "Eno.C73_undisturbed", "Eno.C73_refuted", "Eno.C73_refuted_unsteady"], "note": "False of the code: only subsections that the template itself contains are merged, not those it takes over by copying (C73_refuted), and an empty section that is merged more than once may be taken over before it is complete (C73_refuted_unsteady). Proved apart from these; C73_terminates without exception."},
 {"property": "C74", "status": "proved", "theorems": ["Eno.C74_unambiguous", "Eno.C74_exists", "Eno.C74_parse", "Eno.C74_headers", "Eno.C74_translated", "Eno.C74_wording", "Eno.C74_parse_wording"], "note": "C74_wording compares with the lines of the message files, taken as text (Spec/MessageFiles.lean). C74_exists: two messages with a key do not exist; parse never raises them (C74_parse)"},
 {"property": "C75", "status": "proved", "theorems": ["Eno.El.C75_uniform", "Eno.El.C75_said", "Eno.El.C75_text", "Eno.El.C75_selection"], "note": "the terminal reporter, which may fail (C57, C71), is left out of C75_uniform; that line numbers are exact is said for documents in which no line is connected with another one (C11)"},
 {"property": "C76", "status": "partial", "theorems": ["Eno.El.C76_registered_partial", "Eno.El.C76_by_name_partial", "Eno.El.C76_missing", "Eno.El.C76_names", "Eno.El.C76_others", "Eno.El.C76_native_partial", "Eno.El.C76_string_partial", "Eno.El.C76_safe_refuted"], "note": "False of the code for two names: a loader registered as string replaces the methods for strings, of items but not of fields, and one registered under the empty name replaces _key (C76_safe_refuted). Proved for all other names."},
 {"property": "C77", "status": "partial", "theorems": ["Eno.El.C77_quiet", "Eno.El.C77_partial", "Eno.El.C77_short", "Eno.El.C77_raises", "Eno.El.C77_refuted", "Eno.El.circle_refuted"], "note": "False of the code: repr of an Element that stands for an item or for the document raises KeyError (C77_raises; they are given to the message function of assert_all_touched and returned by lookup), and line breaks are not replaced (C77_refuted). C77_partial leaves out such objects and documents in which a section is in the end merged with itself (C73), of which it is false: RecursionError (circle_refuted); C77_quiet has no exceptions."},
 {"property": "C78", "status": "partial", "theorems": ["Eno.El.C78_found", "Eno.El.C78_to", "Eno.El.C78_value", "Eno.El.C78_key", "Eno.El.C78_parts_refuted"], "note": "False of the code: to_list_item and to_fieldset_entry always raise AttributeError (C78_parts_refuted). The rest is proved; all theorems about reachable worlds also hold for what is made of what lookup returns."},
 {"property": "C79", "status": "proved", "theorems": ["Eno.C79_says", "Eno.C79_parse", "Eno.C79_blank_line", "Eno.C79_indentation", "Eno.C79_white_says", "Eno.C79_white", "Eno.C79_white_first"], "note": "What lines say is Says in Spec/Sayings.lean, without offsets. Reporters other than the terminal (which raises KeyError for most errors, C57); snippets and selections are not compared. The column of the text of a comment counts, since comments of several lines are dedented together."},
 {"property": "C80", "status": "proved", "theorems": ["Eno.El.C80_programs", "Eno.El.C80_white"], "note": "Programs are Program in Spec/Programs.lean; they start with the document, or with what lookup returned for the first text (the same element of the second). The terminal reporter, which may fail (C57, C71), is left out. Documents that are rejected are in C79."},
 {"property": "C81", "status": "proved", "theorems": ["Eno.El.C81_call", "Eno.El.C81_missing", "Eno.El.C81_kinds", "Eno.El.C81_reliable", "Eno.El.C81_field", "Eno.El.C81_noMethod", "Eno.El.C81_raw", "Eno.El.C81_raw_iff", "Eno.El.C81_sound", "Eno.El.C81_sound_missing"], "note": "The reasons are Hazard in Spec/Hazard.lean; examples show that they occur. They are bounds, not exact: a hazard of raw, of assert_all_touched and of getting stuck in a section says what may happen, not that it does (C81_raw_iff is exact for raw of documents without deep copies; C81_sound says what remains in documents without the constructs that make reads or the reporter fail; exact conditions for single calls are in C22, C40, C46, C47, C63, C64, C77). Sections merged with themselves (C73) and the terminal reporter (C57) are left out."},
 {"property": "C82", "status": "proved", "theorems": ["Eno.El.C82_raw", "Eno.El.C82_class", "Eno.C82_line", "Eno.C82_index", "Eno.C82_said", "Eno.El.C82_again", "Eno.El.C82_else", "Eno.El.C82_kinds"], "note": "That raw returns something is C35 and C81; which values it contains is C21 and C35. The exceptions that Python raises by itself have no texts in the model."},
 {"property": "C83", "status": "proved", "theorems": ["Eno.C83_accepted", "Eno.C83_unique", "Eno.C83_trimmed", "Eno.C83_without_copies", "Eno.C83_raw", "Eno.C83_written"], "note": "What a single line says is specified by readLine and Says (Spec/Line, Spec/Sayings; C01). When copies are resolved, and into what, is C23 to C34; C83_raw is about documents without copies. A comment that is one empty line makes raw fail (C22)."},
 {"property": "C84", "status": "proved", "theorems": ["Eno.C84_loads_iff", "Eno.C84_loadable", "Eno.C84_raw", "Eno.C84_raw_iff", "Eno.C84_unique", "Eno.C84_written", "Eno.C84_expressible", "Eno.C84_plain", "Eno.El.C84_program", "Eno.El.C84_program_iff", "Eno.El.C84_parse_raw"], "note": "The trees and their lines are those of C83, the meaning is given in Spec/Copied.lean without references or merging in place. C84_loadable says exactly which texts load returns a document for, with C83 and C84 together and without exceptions. C84_raw excludes what C21 and C22 refute: deep copies of sections, copies of sections without contents of their own, comments that are one empty line; C84_raw_iff says that raw indeed fails for every copy of a section without contents of its own. C84_program, C84_program_iff and C84_parse_raw say this of the documents that programs (C80) have at hand, whatever they did before."},
 {"property": "C85", "status": "proved", "theorems": ["Eno.El.C85_field", "Eno.El.C85_list", "Eno.El.C85_fieldset", "Eno.El.C85_section", "Eno.El.C85_missing", "Eno.El.C85_several", "Eno.El.C85_all", "Eno.El.C85_all_other"], "note": "The documents and their meaning are those of C84. C85_all is about fields(key), lists(key), fieldsets(key) and sections(key), and about ways through any of several sections with one key. Unlike C84_raw, this includes copies of sections without contents of their own; deep copies of sections are left out (see C32, C73)."},
 {"property": "C86", "status": "proved", "theorems": ["Eno.C86_parse", "Eno.C86_loads", "Eno.C86_comment_line", "Eno.C86_insert", "Eno.C86_insert_first", "Eno.El.C86_programs", "Eno.El.C86_insert_programs"], "note": "The same document means: equal answers of all readers that are not about comments, for any recursion limit and whatever has been read before; raw outputs are compared where both exist (reading the comment of an element whose only comment line is empty raises, see C35). Errors are compared by their messages, without line numbers. For a comment behind the last line there is a counterexample beside the theorem: it can become the name of a template. Programs are those of C80; that programs that read comments get something else is C86_programs_need_aside."},
 {"property": "C87", "status": "proved", "theorems": ["Eno.C87_iff", "Eno.C87_texts", "Eno.C87_elements", "Eno.C87_plain", "Eno.C87_not_all"], "note": "C87_iff is about trees and their meanings (C84), C87_texts about texts and what raw returns. Dictionaries are compared because the type of a multiline field is shown as that of a field; the text of a copied multiline field can only be written as a multiline field."}
]}
