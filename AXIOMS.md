# Axioms of the theorems in MANIFEST.json

Generated by `tools/gen_axioms.py` from `#print axioms`.

## Classical.choice, Quot.sound, propext

* `Eno.C01_grammar_exact`
* `Eno.C01_groups_present`
* `Eno.C01_lines_exact`
* `Eno.C02_empty_line`
* `Eno.C02_field`
* `Eno.C02_field_line`
* `Eno.C03_escaped_key_line`
* `Eno.C03_every_key_writable`
* `Eno.C04_blank`
* `Eno.C04_comment`
* `Eno.C04_continuation`
* `Eno.C04_copy`
* `Eno.C04_empty_comment`
* `Eno.C04_empty_continuation`
* `Eno.C04_empty_entry`
* `Eno.C04_empty_list_item`
* `Eno.C04_entry`
* `Eno.C04_heading`
* `Eno.C04_heading_copy`
* `Eno.C04_heading_escaped`
* `Eno.C04_list_item`
* `Eno.C04_multiline`
* `Eno.C05_multiline`
* `Eno.C05_verbatim`
* `Eno.C06_blank`
* `Eno.C06_indentation`
* `Eno.C06_spaces`
* `Eno.C06_trailing`
* `Eno.C07_accepted_iff`
* `Eno.C07_one_reading`
* `Eno.C07_total`
* `Eno.C08_nothing_dropped`
* `Eno.C08_reachable`
* `Eno.C09_ordered`
* `Eno.C10_apart`
* `Eno.C10_comment_names`
* `Eno.C10_comments`
* `Eno.C10_escapes`
* `Eno.C10_multiline_names`
* `Eno.C10_names`
* `Eno.C10_operators`
* `Eno.C10_ranges`
* `Eno.C10_texts`
* `Eno.C11_at_most`
* `Eno.C11_line_numbers_partial`
* `Eno.C11_neat_partial`
* `Eno.C12_depth`
* `Eno.C12_nesting`
* `Eno.C13_only_skips`
* `Eno.C13_skip_rejected`
* `Eno.C14_children`
* `Eno.C14_parent`
* `Eno.C15_C16_attached`
* `Eno.C15_entry_legal`
* `Eno.C15_entry_rejected`
* `Eno.C15_item_legal`
* `Eno.C15_item_rejected`
* `Eno.C15_only`
* `Eno.C16_continuation_legal`
* `Eno.C16_continuation_rejected`
* `Eno.C16_only`
* `Eno.C17_comments`
* `Eno.C18_kinds`
* `Eno.C19_accepted_iff`
* `Eno.C19_first_terminator`
* `Eno.C19_only`
* `Eno.C19_recorded`
* `Eno.C19_unterminated_rejected`
* `Eno.C20_value`
* `Eno.C21_answers`
* `Eno.C21_any_idempotent`
* `Eno.C21_any_outcome`
* `Eno.C21_any_session`
* `Eno.C21_elements_iff`
* `Eno.C21_idempotent_partial`
* `Eno.C21_shaky`
* `Eno.C21_unique`
* `Eno.C22_comment_partial`
* `Eno.C22_raises`
* `Eno.C22_text`
* `Eno.C23_none_partial`
* `Eno.C23_none_rejected`
* `Eno.C23_two`
* `Eno.C23_unique`
* `Eno.C24_dichotomy`
* `Eno.C24_iff`
* `Eno.C24_sound`
* `Eno.C25_parse_error`
* `Eno.C25_partial`
* `Eno.C26_resolved`
* `Eno.C27_entries`
* `Eno.C27_items`
* `Eno.C27_value`
* `Eno.C28_append`
* `Eno.C29_override`
* `Eno.C30_exact`
* `Eno.C30_parse_error`
* `Eno.C30_rejected`
* `Eno.C31_terminates`
* `Eno.C32_terminates_partial`
* `Eno.C33_copied`
* `Eno.C33_own`
* `Eno.C33_undisturbed`
* `Eno.C34_elements`
* `Eno.C34_own`
* `Eno.C34_sections`
* `Eno.C35_lists_partial`
* `Eno.C35_raw_iff`
* `Eno.C35_raw_raises`
* `Eno.C35_sections_partial`
* `Eno.C36_selection`
* `Eno.C37_analysis`
* `Eno.C37_parse`
* `Eno.C38_emphasis`
* `Eno.C38_rows_partial`
* `Eno.C40_element`
* `Eno.C40_leaves`
* `Eno.C40_missing_other`
* `Eno.C40_missing_section`
* `Eno.C40_refuted`
* `Eno.C41_window`
* `Eno.C49_line`
* `Eno.C50_index`
* `Eno.C51_further_partial`
* `Eno.C51_last`
* `Eno.C52_index`
* `Eno.C52_line`
* `Eno.C53_loads_iff`
* `Eno.C53_marked_iff`
* `Eno.C54_defined`
* `Eno.C54_inherited`
* `Eno.C54_written`
* `Eno.C55_beyond_index`
* `Eno.C55_beyond_line`
* `Eno.C55_near_index`
* `Eno.C55_near_line`
* `Eno.C56_loose_comments`
* `Eno.C57_terminal_fails`
* `Eno.C58_context_partial`
* `Eno.C58_exact`
* `Eno.C59_marks`
* `Eno.C59_selection`
* `Eno.C60_comment`
* `Eno.C60_comment_none`
* `Eno.C60_key`
* `Eno.C60_key_item`
* `Eno.C60_missing_comment`
* `Eno.C60_missing_value`
* `Eno.C60_missing_value_other`
* `Eno.C60_value`
* `Eno.C60_value_copy`
* `Eno.C60_value_multiline`
* `Eno.C60_value_multiline_none`
* `Eno.C60_value_text`
* `Eno.C66_parse_error`
* `Eno.C66_unclosed`
* `Eno.C67_missing_document`
* `Eno.C67_missing_element`
* `Eno.C67_missing_section`
* `Eno.C67_several`
* `Eno.C68_round_trip`
* `Eno.C68_unambiguous`
* `Eno.C71_parse`
* `Eno.C71_snippet`
* `Eno.C73_elements_partial`
* `Eno.C73_readable_partial`
* `Eno.C73_refuted_unsteady`
* `Eno.C73_source`
* `Eno.C73_subsection_partial`
* `Eno.C73_terminates`
* `Eno.C73_undisturbed`
* `Eno.C74_headers`
* `Eno.C74_parse`
* `Eno.C74_parse_wording`
* `Eno.C74_translated`
* `Eno.C74_unambiguous`
* `Eno.C79_parse`
* `Eno.C79_says`
* `Eno.C79_white`
* `Eno.C79_white_first`
* `Eno.C82_index`
* `Eno.C82_line`
* `Eno.C82_said`
* `Eno.C83_accepted`
* `Eno.C83_raw`
* `Eno.C83_trimmed`
* `Eno.C83_without_copies`
* `Eno.C83_written`
* `Eno.C84_loadable`
* `Eno.C84_loads_iff`
* `Eno.C84_raw`
* `Eno.C84_raw_iff`
* `Eno.C84_written`
* `Eno.C86_insert`
* `Eno.C86_insert_first`
* `Eno.C86_loads`
* `Eno.C86_parse`
* `Eno.C87_texts`
* `Eno.El.C21_program_raw`
* `Eno.El.C42_element`
* `Eno.El.C42_none`
* `Eno.El.C42_other_kind`
* `Eno.El.C42_partial`
* `Eno.El.C42_several`
* `Eno.El.C42_yielded`
* `Eno.El.C43_elements`
* `Eno.El.C43_kinds`
* `Eno.El.C43_other_kind`
* `Eno.El.C43_same`
* `Eno.El.C45_blank`
* `Eno.El.C45_comment_partial`
* `Eno.El.C45_key`
* `Eno.El.C45_value`
* `Eno.El.C45_values`
* `Eno.El.C46_entries_refuted`
* `Eno.El.C46_partial`
* `Eno.El.C46_passes`
* `Eno.El.C47_other`
* `Eno.El.C47_same`
* `Eno.El.C48_parts`
* `Eno.El.C48_yields`
* `Eno.El.C61_contents`
* `Eno.El.C61_entries`
* `Eno.El.C61_none`
* `Eno.El.C61_one`
* `Eno.El.C61_several`
* `Eno.El.C62_blank`
* `Eno.El.C62_comment_partial`
* `Eno.El.C62_error`
* `Eno.El.C62_key`
* `Eno.El.C62_value`
* `Eno.El.C63_fieldset`
* `Eno.El.C63_flags`
* `Eno.El.C63_new`
* `Eno.El.C63_partial`
* `Eno.El.C64_found`
* `Eno.El.C64_obtained`
* `Eno.El.C64_other`
* `Eno.El.C64_section`
* `Eno.El.C65_element`
* `Eno.El.C65_returns_partial`
* `Eno.El.C65_touch`
* `Eno.El.C68_program`
* `Eno.El.C69_contents`
* `Eno.El.C69_items`
* `Eno.El.C69_length`
* `Eno.El.C69_same`
* `Eno.El.C70_field`
* `Eno.El.C70_fieldset`
* `Eno.El.C70_list`
* `Eno.El.C70_missing`
* `Eno.El.C70_section`
* `Eno.El.C75_said`
* `Eno.El.C75_selection`
* `Eno.El.C75_text`
* `Eno.El.C75_uniform`
* `Eno.El.C76_by_name_partial`
* `Eno.El.C76_missing`
* `Eno.El.C76_native_partial`
* `Eno.El.C76_others`
* `Eno.El.C76_registered_partial`
* `Eno.El.C76_string_partial`
* `Eno.El.C77_partial`
* `Eno.El.C77_quiet`
* `Eno.El.C77_raises`
* `Eno.El.C78_found`
* `Eno.El.C78_key`
* `Eno.El.C78_parts_refuted`
* `Eno.El.C78_to`
* `Eno.El.C78_value`
* `Eno.El.C80_programs`
* `Eno.El.C80_white`
* `Eno.El.C81_call`
* `Eno.El.C81_field`
* `Eno.El.C81_missing`
* `Eno.El.C81_raw`
* `Eno.El.C81_raw_iff`
* `Eno.El.C81_reliable`
* `Eno.El.C81_sound`
* `Eno.El.C81_sound_missing`
* `Eno.El.C82_again`
* `Eno.El.C82_class`
* `Eno.El.C82_raw`
* `Eno.El.C84_parse_raw`
* `Eno.El.C84_program`
* `Eno.El.C84_program_iff`
* `Eno.El.C85_all`
* `Eno.El.C85_all_other`
* `Eno.El.C85_field`
* `Eno.El.C85_fieldset`
* `Eno.El.C85_list`
* `Eno.El.C85_missing`
* `Eno.El.C85_section`
* `Eno.El.C85_several`
* `Eno.El.C86_insert_programs`
* `Eno.El.C86_programs`
* `Eno.El.circle_refuted`

## Quot.sound, propext

* `Eno.C20_next`
* `Eno.C20_none`
* `Eno.C21_refuted`
* `Eno.C22_blank`
* `Eno.C22_refuted`
* `Eno.C23_refuted`
* `Eno.C25_refuted`
* `Eno.C32_refuted`
* `Eno.C35_order_refuted`
* `Eno.C35_refuted`
* `Eno.C38_refuted`
* `Eno.C39_escape`
* `Eno.C39_html`
* `Eno.C39_source_refuted`
* `Eno.C51_all`
* `Eno.C51_refuted`
* `Eno.C52_no_column`
* `Eno.C52_parse`
* `Eno.C56_only_by_line`
* `Eno.C57_terminal_deep_copy`
* `Eno.C57_terminal_reports`
* `Eno.C58_context_refuted`
* `Eno.C68_expressible`
* `Eno.C72_parse`
* `Eno.C72_validation`
* `Eno.C73_refuted`
* `Eno.C79_blank_line`
* `Eno.C79_indentation`
* `Eno.C79_white_says`
* `Eno.C83_unique`
* `Eno.C84_expressible`
* `Eno.C84_plain`
* `Eno.C86_comment_line`
* `Eno.C87_elements`
* `Eno.C87_iff`
* `Eno.C87_not_all`
* `Eno.C87_plain`
* `Eno.El.C42_refuted`
* `Eno.El.C46_touch_refuted`
* `Eno.El.C77_refuted`
* `Eno.El.C77_short`
* `Eno.El.C82_else`

## none

* `Eno.C22_left_out`
* `Eno.El.C82_kinds`

## propext

* `Eno.C11_refuted`
* `Eno.C20_first`
* `Eno.C20_last`
* `Eno.C21_askable`
* `Eno.C67_type`
* `Eno.C67_unexpected`
* `Eno.C74_exists`
* `Eno.C74_wording`
* `Eno.C84_unique`
* `Eno.El.C44_chain`
* `Eno.El.C44_got`
* `Eno.El.C44_inside`
* `Eno.El.C44_optional`
* `Eno.El.C44_refuted`
* `Eno.El.C44_repr`
* `Eno.El.C44_required_partial`
* `Eno.El.C44_to`
* `Eno.El.C76_names`
* `Eno.El.C76_safe_refuted`
* `Eno.El.C81_kinds`
* `Eno.El.C81_noMethod`
