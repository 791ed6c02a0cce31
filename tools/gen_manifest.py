import json
C=[]
def c(p,st,th,note=""): C.append({"property":p,"status":st,"theorems":["Eno."+t for t in th.split()],"note":note})
c("C01","proved","C01_grammar_exact C01_lines_exact C01_groups_present","backtracking regex equals the independent scanner for every input and position")
c("C02","proved","C02_field C02_field_line C02_empty_line","")
c("C03","proved","C03_escaped_key_line C03_every_key_writable")
c("C04","proved","C04_list_item C04_empty_list_item C04_entry C04_empty_entry C04_copy C04_continuation C04_empty_continuation C04_comment C04_empty_comment C04_blank C04_heading C04_heading_copy C04_heading_escaped C04_multiline","one theorem per kind of line")
c("C05","proved","C05_multiline C05_verbatim","from written text to value, and for every multiline field of a loaded document")
c("C06","proved","C06_indentation C06_trailing C06_spaces C06_blank")
c("C07","proved","C07_total C07_one_reading C07_accepted_iff")
c("C08","proved","C08_nothing_dropped C08_reachable")
c("C09","proved","C09_ordered")
c("C10","proved","C10_ranges C10_texts C10_comments C10_operators C10_names C10_escapes C10_comment_names C10_apart C10_multiline_names")
c("C11","partial","C11_refuted C11_line_numbers_partial C11_neat_partial C11_at_most","false of the code: whitespace in a key gap may span line feeds; refuted by a witness, proved for inputs where no instruction contains a line feed, which holds for every input whose lines are neat (a decidable condition on single lines); line numbers are never too large")
c("C12","proved","C12_depth C12_nesting")
c("C13","proved","C13_skip_rejected C13_only_skips")
c("C14","proved","C14_parent C14_children")
c("C15","proved","C15_C16_attached C15_item_legal C15_entry_legal C15_item_rejected C15_entry_rejected C15_only")
c("C16","proved","C15_C16_attached C16_continuation_legal C16_continuation_rejected C16_only")
c("C17","proved","C17_comments")
c("C18","proved","C18_kinds")
c("C19","proved","C19_first_terminator C19_accepted_iff C19_unterminated_rejected C19_only C19_recorded")
c("C20","proved","C20_value C20_none C20_first C20_next C20_last")
c("C21","partial","C21_idempotent_partial C21_answers C21_any_session C21_any_idempotent C21_any_outcome C21_askable C21_elements_iff C21_shaky El.C21_program_raw C21_unique C21_refuted","false of the code for sections that extend a copied section without own elements (refuted by a witness); proved for every history of reads outside that case. Without deep copies the history may contain any reads at all (C21_any_session, C21_any_idempotent), and any read returns, raises KeyError because of an empty comment line or TypeError because of such a copy (C21_any_outcome). C21_elements_iff says, without deep copies, exactly for which sections elements is the same every time; for the others the first read raises TypeError and the next one does not (C21_shaky). C21_program_raw is about programs with objects: what they did before does not change what raw returns.")
c("C22","partial","C22_comment_partial C22_left_out C22_raises C22_text C22_blank C22_refuted","false of the code: KeyError if and only if the comment consists of a single empty line (C22_raises); every other comment is read as specified")
c("C23","partial","C23_unique C23_two C23_none_rejected C23_none_partial C23_refuted","with no candidate the parse always fails, but with KeyError instead of not-found if another copy depends on that copy (refuted by a witness)")
c("C24","proved","C24_dichotomy C24_sound C24_iff")
c("C25","partial","C25_partial C25_parse_error C25_refuted","false of the code: KeyError and UnboundLocalError are possible; refuted by witnesses, termination and the exact circumstances proved")
c("C26","proved","C26_resolved")
c("C27","proved","C27_value C27_items C27_entries")
c("C28","proved","C28_append")
c("C29","proved","C29_override")
c("C30","partial","C30_rejected C30_parse_error C30_exact","always rejected; with a ParseError if every copied name has a candidate (else KeyError is possible, see C25)")
c("C31","proved","C31_terminates")
c("C32","partial","C32_terminates_partial C73_terminates C32_refuted","false of the code: a deep merge can close a cycle of links, refuted by a witness for every recursion depth; proved for sections no deep merge can touch and for all documents without circles of merges")
c("C33","proved","C33_copied C33_own C33_undisturbed","as stated for documents without deep copies; also for sections no deep merge can touch")
c("C34","proved","C34_elements C34_sections C34_own")
c("C35","partial","C35_lists_partial C35_sections_partial C35_raw_iff C35_raw_raises C35_refuted C35_order_refuted","false of the code: TypeError for sections copied without own elements, KeyError for single empty comment lines; proved otherwise, for sections up to order. C35_raw_iff: without deep copies, these are exactly the documents that raw cannot show; C35_raw_raises says what is raised.")
c("C53","proved","C53_loads_iff C53_marked_iff")
c("C54","proved","C54_inherited C54_defined C54_written")
c("C49", "proved", "C49_line", "With any column; also says which range is reported.")
c("C50", "proved", "C50_index", "Also says which range is reported.")
c("C51", "partial", "C51_further_partial C51_last C51_all C51_refuted", "False for continuations of the last item of a list or the last entry of a fieldset: the surrounding section is returned without a range, always (C51_last). Proved for all others (C51_all: there are no more) and for multiline fields, by line and by index.")
c("C52", "proved", "C52_line C52_index C52_parse C52_no_column", "C52_no_column: calls without a column (or without any position) are TypeErrors.")
c("C55", "proved", "C55_near_line C55_near_index C55_beyond_line C55_beyond_index", "")
c("C56", "proved", "C56_loose_comments C56_only_by_line", "C56_only_by_line: by index, and for comments of elements, no range is reported.")
c("C36", "proved", "C36_selection", "Also for errors of the resolver. The line number is the true one for neat inputs (see C11), never too large for others.")
c("C37", "proved", "C37_analysis C37_parse", "For the text and the HTML reporter; the terminal reporter is C57.")
c("C38", "partial", "C38_refuted C38_emphasis C38_rows_partial", "The emphasised line is right for every input. False of the code for other rows: comments pending at the error are shown as empty lines (witness). Proved for neat inputs with comments excepted, and for errors of the resolver without exception.")
c("C39", "proved", "C39_escape C39_html C39_source_refuted", "The name of the source is not escaped (witness).")
c("C41", "proved", "C41_window", "")
c("C57", "partial", "C57_terminal_fails C57_terminal_reports C57_terminal_deep_copy", "False of the code: KeyError for every input that the analysis rejects (proved for all), and for snippets with a deep copy operator (witness).")
c("C58", "partial", "C58_context_refuted C58_context_partial C58_exact", "False of the code: the lines after a tagged first line are not shown (witness). Proved for all other tagged lines; C58_exact says exactly which lines are shown.")
c("C40", "partial", "C40_element C40_leaves C40_missing_section C40_missing_other C40_refuted", "False of the code: TypeError if something follows an element without anything (or a copied fieldset) in the section; refuted by a witness, and the sections for which this happens are characterised exactly. Never for anything but sections.")
c("C59", "proved", "C59_marks C59_selection", "")
c("C42", "partial", "El.C42_none El.C42_several El.C42_element El.C42_other_kind El.C42_partial El.C42_yielded El.C42_refuted",
  "Any world that a program can reach. C42_partial leaves out elements that were yielded as another kind before; for these the claim is false (C42_refuted, C42_yielded: TypeError).")
c("C43", "proved", "El.C43_elements El.C43_same El.C43_kinds El.C43_other_kind", "Any world that a program can reach; also the accessors for several elements of a kind.")
c("C44", "partial", "El.C44_required_partial El.C44_optional El.C44_chain El.C44_got El.C44_to El.C44_inside El.C44_repr El.C44_refuted", "False for required values of a missing list, which are an empty list (C44_refuted); proved for all other reads.")
c("C45", "partial", "El.C45_value El.C45_comment_partial El.C45_blank El.C45_key El.C45_values", "Values and keys in full, for loaders that use the elements themselves. Comments as well, but a comment of a single empty line raises KeyError, required or not (C45_blank, see C22).")
c("C46", "partial", "El.C46_passes El.C46_partial El.C46_touch_refuted El.C46_entries_refuted El.circle_refuted", "That it passes only if all was used is proved for all documents; that it passes or raises about an unused element for documents in which no section is in the end merged with itself (see C32, C73), for others it is false: RecursionError (circle_refuted). Calling touch() first is not enough (C46_touch_refuted). For fieldsets it passes iff the entries were touched but raises TypeError otherwise (C46_entries_refuted).")
c("C47", "proved", "El.C47_same El.C47_other", "Any world, any program in between.")
c("C48", "proved", "El.C48_yields El.C48_parts", "Any world that a program can reach.")
c("C60","proved","C60_key C60_key_item C60_missing_comment C60_comment C60_comment_none C60_missing_value C60_missing_value_other C60_value_copy C60_value_multiline C60_value_multiline_none C60_value C60_value_text","with the text and HTML reporters; the marks are stated for the text reporter")
c("C61","proved","El.C61_entries El.C61_none El.C61_one El.C61_several El.C61_contents","entry() without required behaves as optional_entry(), because _entry has the default required=False")
c("C62","partial","El.C62_error El.C62_key El.C62_value El.C62_comment_partial El.C62_blank","False of the code for comment_error with a function on a comment of a single empty line: KeyError (C62_blank, see C22)")
c("C63","partial","El.C63_flags El.C63_partial El.C63_new El.C63_fieldset El.circle_refuted","El.C63_partial, that it returns or raises AttributeError, leaves out documents in which a section is in the end merged with itself (C32, C73), of which it is false: RecursionError (circle_refuted); the flags (El.C63_flags) are proved without restriction for calls that return")
c("C64","proved","El.C64_section El.C64_other El.C64_obtained El.C64_found","")
c("C65","partial","El.C65_touch El.C65_element El.C65_returns_partial El.circle_refuted","El.C65_returns_partial, that it returns, leaves out documents in which a section is in the end merged with itself (C32, C73), of which it is false: RecursionError (circle_refuted)")
c("C66","proved","C66_parse_error C66_unclosed","the marks are stated for the text reporter")
c("C67","proved","C67_several C67_missing_section C67_missing_element C67_missing_document C67_type C67_unexpected","with the text and HTML reporters; errors that cannot be made at all because of stuck sections are those of C40; the marks are stated for the text reporter")
c("C68","proved","C68_round_trip C68_unambiguous C68_expressible El.C68_program","Documents without copies. C68_program is about the documents that programs (C80) have at hand.")
c("C69","proved","El.C69_items El.C69_length El.C69_same El.C69_contents","in any world that a program can reach")
c("C70","proved","El.C70_field El.C70_list El.C70_fieldset El.C70_section El.C70_missing","documents without copies; keys that occur once at their level (for others see C42)")
c("C71","proved","C71_snippet C71_parse","documents and sources without escape characters; that nothing is printed with the operator of a deep copy is part of the statement (see C57)")
c("C72","proved","C72_parse C72_validation","")
c("C73","partial","C73_elements_partial C73_readable_partial C73_terminates C73_source C73_subsection_partial C73_undisturbed C73_refuted C73_refuted_unsteady","False of the code: only subsections that the template itself contains are merged, not those it takes over by copying (C73_refuted), and an empty section that is merged more than once may be taken over before it is complete (C73_refuted_unsteady). Proved apart from these; C73_terminates without exception.")
c("C74","proved","C74_unambiguous C74_exists C74_parse C74_headers C74_translated C74_wording C74_parse_wording","C74_wording compares with the lines of the message files, taken as text (Spec/MessageFiles.lean). C74_exists: two messages with a key do not exist; parse never raises them (C74_parse)")
c("C75","proved","El.C75_uniform El.C75_said El.C75_text El.C75_selection","the terminal reporter, which may fail (C57, C71), is left out of C75_uniform; that line numbers are exact is said for documents in which no line is connected with another one (C11)")
c("C76","partial","El.C76_registered_partial El.C76_by_name_partial El.C76_missing El.C76_names El.C76_others El.C76_native_partial El.C76_string_partial El.C76_safe_refuted","False of the code for two names: a loader registered as string replaces the methods for strings, of items but not of fields, and one registered under the empty name replaces _key (C76_safe_refuted). Proved for all other names.")
c("C77","partial","El.C77_quiet El.C77_partial El.C77_short El.C77_raises El.C77_refuted El.circle_refuted","False of the code: repr of an Element that stands for an item or for the document raises KeyError (C77_raises; they are given to the message function of assert_all_touched and returned by lookup), and line breaks are not replaced (C77_refuted). C77_partial leaves out such objects and documents in which a section is in the end merged with itself (C73), of which it is false: RecursionError (circle_refuted); C77_quiet has no exceptions.")
c("C78","partial","El.C78_found El.C78_to El.C78_value El.C78_key El.C78_parts_refuted","False of the code: to_list_item and to_fieldset_entry always raise AttributeError (C78_parts_refuted). The rest is proved; all theorems about reachable worlds also hold for what is made of what lookup returns.")
c("C79","proved","C79_says C79_parse C79_blank_line C79_indentation C79_white_says C79_white C79_white_first","What lines say is Says in Spec/Sayings.lean, without offsets. Reporters other than the terminal (which raises KeyError for most errors, C57); snippets and selections are not compared. The column of the text of a comment counts, since comments of several lines are dedented together.")
c("C80","proved","El.C80_programs El.C80_white","Programs are Program in Spec/Programs.lean; they start with the document, or with what lookup returned for the first text (the same element of the second). The terminal reporter, which may fail (C57, C71), is left out. Documents that are rejected are in C79.")
c("C81","proved","El.C81_call El.C81_missing El.C81_kinds El.C81_reliable El.C81_field El.C81_noMethod El.C81_raw El.C81_raw_iff El.C81_sound El.C81_sound_missing","The reasons are Hazard in Spec/Hazard.lean; examples show that they occur. They are bounds, not exact: a hazard of raw, of assert_all_touched and of getting stuck in a section says what may happen, not that it does (C81_raw_iff is exact for raw of documents without deep copies; C81_sound says what remains in documents without the constructs that make reads or the reporter fail; exact conditions for single calls are in C22, C40, C46, C47, C63, C64, C77). Sections merged with themselves (C73) and the terminal reporter (C57) are left out.")
c("C82","proved","El.C82_raw El.C82_class C82_line C82_index C82_said El.C82_again El.C82_else El.C82_kinds","That raw returns something is C35 and C81; which values it contains is C21 and C35. The exceptions that Python raises by itself have no texts in the model.")
c("C83","proved","C83_accepted C83_unique C83_trimmed C83_without_copies C83_raw C83_written","What a single line says is specified by readLine and Says (Spec/Line, Spec/Sayings; C01). When copies are resolved, and into what, is C23 to C34; C83_raw is about documents without copies. A comment that is one empty line makes raw fail (C22).")
c("C84","proved","C84_loads_iff C84_loadable C84_raw C84_raw_iff C84_unique C84_written C84_expressible C84_plain El.C84_program El.C84_program_iff El.C84_parse_raw","The trees and their lines are those of C83, the meaning is given in Spec/Copied.lean without references or merging in place. C84_loadable says exactly which texts load returns a document for, with C83 and C84 together and without exceptions. C84_raw excludes what C21 and C22 refute: deep copies of sections, copies of sections without contents of their own, comments that are one empty line; C84_raw_iff says that raw indeed fails for every copy of a section without contents of its own. C84_program, C84_program_iff and C84_parse_raw say this of the documents that programs (C80) have at hand, whatever they did before.")
c("C85","proved","El.C85_field El.C85_list El.C85_fieldset El.C85_section El.C85_missing El.C85_several El.C85_all El.C85_all_other","The documents and their meaning are those of C84. C85_all is about fields(key), lists(key), fieldsets(key) and sections(key), and about ways through any of several sections with one key. Unlike C84_raw, this includes copies of sections without contents of their own; deep copies of sections are left out (see C32, C73).")
c("C86","proved","C86_parse C86_loads C86_comment_line C86_insert C86_insert_first El.C86_programs El.C86_insert_programs","The same document means: equal answers of all readers that are not about comments, for any recursion limit and whatever has been read before; raw outputs are compared where both exist (reading the comment of an element whose only comment line is empty raises, see C35). Errors are compared by their messages, without line numbers. For a comment behind the last line there is a counterexample beside the theorem: it can become the name of a template. Programs are those of C80; that programs that read comments get something else is C86_programs_need_aside.")
c("C87","proved","C87_iff C87_texts C87_elements C87_plain C87_not_all","C87_iff is about trees and their meanings (C84), C87_texts about texts and what raw returns. Dictionaries are compared because the type of a multiline field is shown as that of a field; the text of a copied multiline field can only be written as a multiline field.")
open('/verif/MANIFEST.json','w').write('{"claims": [\n'+',\n'.join(' '+json.dumps(x) for x in C)+'\n]}\n')
