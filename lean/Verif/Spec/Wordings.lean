import Verif.Spec.MessageFiles

/-!
# Specification: what messages say

A message is a name in the message files (`Spec/MessageFiles.lean`) and what is inserted for the names in braces.
-/

namespace Eno.Spec

/-- The name of a message without a key in the files. -/
def nameOf : MsgName → Str
  | .missingElement => chars!"missing_element"
  | .missingEmpty => chars!"missing_empty"
  | .missingField => chars!"missing_field"
  | .missingFieldset => chars!"missing_fieldset"
  | .missingFieldsetEntry => chars!"missing_fieldset_entry"
  | .missingList => chars!"missing_list"
  | .missingSection => chars!"missing_section"
  | .expectedEmpty => chars!"expected_empty"
  | .expectedField => chars!"expected_field"
  | .expectedFields => chars!"expected_fields"
  | .expectedFieldset => chars!"expected_fieldset"
  | .expectedFieldsets => chars!"expected_fieldsets"
  | .expectedList => chars!"expected_list"
  | .expectedLists => chars!"expected_lists"
  | .expectedSection => chars!"expected_section"
  | .expectedSections => chars!"expected_sections"
  | .expectedFieldsetEntry => chars!"expected_fieldset_entry"
  | .expectedListItem => chars!"expected_list_item"
  | .expectedSingleElement => chars!"expected_single_element"
  | .expectedSingleEmpty => chars!"expected_single_empty"
  | .expectedSingleField => chars!"expected_single_field"
  | .expectedSingleFieldset => chars!"expected_single_fieldset"
  | .expectedSingleFieldsetEntry => chars!"expected_single_fieldset_entry"
  | .expectedSingleList => chars!"expected_single_list"
  | .expectedSingleSection => chars!"expected_single_section"

/-- The name of a message in the files, and what is inserted. -/
def called : Msg → Option (Str × List (Str × Str))
  | .given _ => none
  | .cyclicDependency n k => some (chars!"cyclic_dependency", [(chars!"line", decimal n), (chars!"key", k)])
  | .invalidLine n => some (chars!"invalid_line", [(chars!"line", decimal n)])
  | .missingElementForContinuation n => some (chars!"missing_element_for_continuation", [(chars!"line", decimal n)])
  | .missingFieldsetForFieldsetEntry n => some (chars!"missing_fieldset_for_fieldset_entry", [(chars!"line", decimal n)])
  | .missingListForListItem n => some (chars!"missing_list_for_list_item", [(chars!"line", decimal n)])
  | .nonSectionElementNotFound n k => some (chars!"non_section_element_not_found", [(chars!"line", decimal n), (chars!"key", k)])
  | .sectionHierarchyLayerSkip n => some (chars!"section_hierarchy_layer_skip", [(chars!"line", decimal n)])
  | .sectionNotFound n k => some (chars!"section_not_found", [(chars!"line", decimal n), (chars!"key", k)])
  | .unterminatedEscapedKey n => some (chars!"unterminated_escaped_key", [(chars!"line", decimal n)])
  | .twoOrMoreTemplatesFound k => some (chars!"two_or_more_templates_found", [(chars!"key", k)])
  | .unterminatedMultilineField k n => some (chars!"unterminated_multiline_field", [(chars!"key", k), (chars!"line", decimal n)])
  | .commentError m => some (chars!"comment_error", [(chars!"message", m)])
  | .keyError m => some (chars!"key_error", [(chars!"message", m)])
  | .valueError m => some (chars!"value_error", [(chars!"message", m)])
  | .missingComment => some (chars!"missing_comment", [])
  | .missingFieldValue k => some (chars!"missing_field_value", [(chars!"key", k)])
  | .missingFieldsetEntryValue k => some (chars!"missing_fieldset_entry_value", [(chars!"key", k)])
  | .missingListItemValue k => some (chars!"missing_list_item_value", [(chars!"key", k)])
  | .unexpectedElement => some (chars!"unexpected_element", [])
  | .named x none => some (nameOf x, [])
  | .named x (some k) => some (nameOf x ++ chars!"_with_key", [(chars!"key", k)])

/-- A text with names in braces replaced; the first argument is the part of a name that was read. -/
def replaced (vs : List (Str × Str)) : Option Str → Str → Str
  | _, [] => []
  | none, c :: t => if c = '{' then replaced vs (some []) t else c :: replaced vs none t
  | some x, c :: t => if c = '}' then (vs.lookup x).getD [] ++ replaced vs none t else replaced vs (some (x ++ [c])) t

/-- What a message says, if the file has it. -/
def wordingOf (l : Locale) (m : Msg) : Option Str := (called m).bind fun x => ((messageFile l).lookup x.1).map (replaced x.2 none)

end Eno.Spec
