import Verif.Messages

/-!
# The message files as they are written

The lines of `/repo/python/enolib/messages/{en,de,es}.py` as names and quoted texts, with `{line}`, `{key}` and `{message}` left as they are. Generated by `tools/gen_wording.py`,
which does not parse the files: each line is split at its quotes. (`MessageTexts.lean`, which the model uses, is made from the syntax tree.)
-/

namespace Eno.Spec

/-- messages/en.py -/
def file_en : List (Str × Str) :=
  [(chars!"content_header", chars!"Content"),
   (chars!"expected_empty", chars!"An empty element was expected."),
   (chars!"expected_field", chars!"A field was expected."),
   (chars!"expected_fields", chars!"Only fields were expected."),
   (chars!"expected_fieldset", chars!"A fieldset was expected."),
   (chars!"expected_fieldset_entry", chars!"A fieldset entry was expected."),
   (chars!"expected_fieldsets", chars!"Only fieldsets were expected."),
   (chars!"expected_list", chars!"A list was expected."),
   (chars!"expected_list_item", chars!"A list item was expected."),
   (chars!"expected_lists", chars!"Only lists were expected."),
   (chars!"expected_section", chars!"A section was expected."),
   (chars!"expected_sections", chars!"Only sections were expected."),
   (chars!"expected_single_element", chars!"Only a single element was expected."),
   (chars!"expected_single_empty", chars!"Only a single empty element was expected."),
   (chars!"expected_single_field", chars!"Only a single field was expected."),
   (chars!"expected_single_fieldset", chars!"Only a single fieldset was expected."),
   (chars!"expected_single_fieldset_entry", chars!"Only a single fieldset entry was expected."),
   (chars!"expected_single_list", chars!"Only a single list was expected."),
   (chars!"expected_single_section", chars!"Only a single section was expected."),
   (chars!"gutter_header", chars!"Line"),
   (chars!"missing_comment", chars!"A required comment for this element is missing."),
   (chars!"missing_element", chars!"A single element is required - it can have any key."),
   (chars!"missing_empty", chars!"A single empty element is required - it can have any key."),
   (chars!"missing_field", chars!"A single field is required - it can have any key."),
   (chars!"missing_fieldset", chars!"A single fieldset is required - it can have any key."),
   (chars!"missing_fieldset_entry", chars!"A single fieldset entry is required - it can have any key."),
   (chars!"missing_list", chars!"A single list is required - it can have any key."),
   (chars!"missing_section", chars!"A single section is required - it can have any key."),
   (chars!"unexpected_element", chars!"This element was not expected, make sure it is at the right place in the document and that its key is not mis-typed."),
   (chars!"comment_error", chars!"There is a problem with the comment of this element: {message}"),
   (chars!"cyclic_dependency", chars!"In line {line} '{key}' is copied into itself."),
   (chars!"expected_empty_with_key", chars!"An empty element with the key '{key}' was expected."),
   (chars!"expected_field_with_key", chars!"A field with the key '{key}' was expected."),
   (chars!"expected_fields_with_key", chars!"Only fields with the key '{key}' were expected."),
   (chars!"expected_fieldset_with_key", chars!"A fieldset with the key '{key}' was expected."),
   (chars!"expected_fieldsets_with_key", chars!"Only fieldsets with the key '{key}' were expected."),
   (chars!"expected_list_with_key", chars!"A list with the key '{key}' was expected."),
   (chars!"expected_lists_with_key", chars!"Only lists with the key '{key}' were expected."),
   (chars!"expected_section_with_key", chars!"A section with the key '{key}' was expected."),
   (chars!"expected_sections_with_key", chars!"Only sections with the key '{key}' were expected."),
   (chars!"expected_single_element_with_key", chars!"Only a single element with the key '{key}' was expected."),
   (chars!"expected_single_empty_with_key", chars!"Only a single empty element with the key '{key}' was expected."),
   (chars!"expected_single_field_with_key", chars!"Only a single field with the key '{key}' was expected."),
   (chars!"expected_single_fieldset_entry_with_key", chars!"Only a single fieldset entry with the key '{key}' was expected."),
   (chars!"expected_single_fieldset_with_key", chars!"Only a single fieldset with the key '{key}' was expected."),
   (chars!"expected_single_list_with_key", chars!"Only a single list with the key '{key}' was expected."),
   (chars!"expected_single_section_with_key", chars!"Only a single section with the key '{key}' was expected."),
   (chars!"invalid_line", chars!"Line {line} does not follow any specified pattern."),
   (chars!"key_error", chars!"There is a problem with the key of this element: {message}"),
   (chars!"missing_element_for_continuation", chars!"Line {line} contains a line continuation without a continuable element being specified before."),
   (chars!"missing_element_with_key", chars!"The element '{key}' is missing - in case it has been specified look for typos and also check for correct capitalization."),
   (chars!"missing_empty_with_key", chars!"The empty element '{key}' is missing - in case it has been specified look for typos and also check for correct capitalization."),
   (chars!"missing_field_value", chars!"The field '{key}' must contain a value."),
   (chars!"missing_field_with_key", chars!"The field '{key}' is missing - in case it has been specified look for typos and also check for correct capitalization."),
   (chars!"missing_fieldset_entry_value", chars!"The fieldset entry '{key}' must contain a value."),
   (chars!"missing_fieldset_entry_with_key", chars!"The fieldset entry '{key}' is missing - in case it has been specified look for typos and also check for correct capitalization."),
   (chars!"missing_fieldset_for_fieldset_entry", chars!"Line {line} contains a fieldset entry without a fieldset being specified before."),
   (chars!"missing_fieldset_with_key", chars!"The fieldset '{key}' is missing - in case it has been specified look for typos and also check for correct capitalization."),
   (chars!"missing_list_for_list_item", chars!"Line {line} contains a list item without a list being specified before."),
   (chars!"missing_list_item_value", chars!"The list '{key}' may not contain empty items."),
   (chars!"missing_list_with_key", chars!"The list '{key}' is missing - in case it has been specified look for typos and also check for correct capitalization."),
   (chars!"missing_section_with_key", chars!"The section '{key}' is missing - in case it has been specified look for typos and also check for correct capitalization."),
   (chars!"non_section_element_not_found", chars!"In line {line} the non-section element '{key}' should be copied, but it was not found."),
   (chars!"section_hierarchy_layer_skip", chars!"Line {line} starts a section that is more than one level deeper than the current one."),
   (chars!"section_not_found", chars!"In line {line} the section '{key}' should be copied, but it was not found."),
   (chars!"two_or_more_templates_found", chars!"There are at least two elements with the key '{key}' that qualify for being copied here, it is not clear which to copy."),
   (chars!"unterminated_escaped_key", chars!"In line {line} the key of an element is escaped, but the escape sequence is not terminated until the end of the line."),
   (chars!"unterminated_multiline_field", chars!"The multiline field '{key}' starting in line {line} is not terminated until the end of the document."),
   (chars!"value_error", chars!"There is a problem with the value of this element: {message}")]

/-- messages/de.py -/
def file_de : List (Str × Str) :=
  [(chars!"content_header", chars!"Inhalt"),
   (chars!"expected_empty", chars!"Ein leeres Element wurde erwartet."),
   (chars!"expected_field", chars!"Ein Feld wurde erwartet."),
   (chars!"expected_fields", chars!"Nur Felder wurden erwartet."),
   (chars!"expected_fieldset", chars!"Ein Fieldset wurde erwartet."),
   (chars!"expected_fieldset_entry", chars!"Ein Fieldset Eintrag wurde erwartet."),
   (chars!"expected_fieldsets", chars!"Nur Fieldsets wurden erwartet."),
   (chars!"expected_list", chars!"Eine Liste wurde erwartet."),
   (chars!"expected_list_item", chars!"Ein Listen Eintrag wurde erwartet."),
   (chars!"expected_lists", chars!"Nur Listen wurden erwartet."),
   (chars!"expected_section", chars!"Eine Sektion wurde erwartet."),
   (chars!"expected_sections", chars!"Nur Sektionen wurden erwartet."),
   (chars!"expected_single_element", chars!"Nur ein einzelnes Element wurde erwartet."),
   (chars!"expected_single_empty", chars!"Nur ein einzelnes leeres Element wurde erwartet."),
   (chars!"expected_single_field", chars!"Nur ein einzelnes Feld wurde erwartet."),
   (chars!"expected_single_fieldset", chars!"Nur ein einzelnes Fieldset wurde erwartet."),
   (chars!"expected_single_fieldset_entry", chars!"Nur ein einzelner Fieldset Eintrag wurde erwartet."),
   (chars!"expected_single_list", chars!"Nur eine einzelne Liste wurde erwartet."),
   (chars!"expected_single_section", chars!"Nur eine einzelne Sektion wurde erwartet."),
   (chars!"gutter_header", chars!"Zeile"),
   (chars!"missing_comment", chars!"Ein erforderlicher Kommentar zu diesem Feld fehlt."),
   (chars!"missing_element", chars!"Ein einzelnes Element ist erforderlich - es kann einen beliebigen Schlüssel haben."),
   (chars!"missing_empty", chars!"Ein einzelnes leeres Element ist erforderlich - es kann einen beliebigen Schlüssel haben."),
   (chars!"missing_field", chars!"Ein einzelnes Feld ist erforderlich - es kann einen beliebigen Schlüssel haben."),
   (chars!"missing_fieldset", chars!"Ein einzelnes Fieldset ist erforderlich - es kann einen beliebigen Schlüssel haben."),
   (chars!"missing_fieldset_entry", chars!"Ein einzelner Fieldset Eintrag ist erforderlich - er kann einen beliebigen Schlüssel haben."),
   (chars!"missing_list", chars!"Eine einzelne Liste ist erforderlich - sie kann einen beliebigen Schlüssel haben."),
   (chars!"missing_section", chars!"Eine einzelne Sektion ist erforderlich - sie kann einen beliebigen Schlüssel haben."),
   (chars!"unexpected_element", chars!"Dieses Element wurde nicht erwartet, prüfe ob es am richtigen Platz ist und dass der Schlüssel keine Tippfehler enthält."),
   (chars!"comment_error", chars!"Es gibt ein Problem mit dem Kommentar dieses Elements: {message}"),
   (chars!"cyclic_dependency", chars!"In Zeile {line} wird '{key}' in sich selbst kopiert."),
   (chars!"expected_empty_with_key", chars!"Ein leeres Element mit dem Schlüssel '{key}' wurde erwartet."),
   (chars!"expected_field_with_key", chars!"Ein Feld mit dem Schlüssel '{key}' wurde erwartet."),
   (chars!"expected_fields_with_key", chars!"Nur Felder mit dem Schlüssel '{key}' wurden erwartet."),
   (chars!"expected_fieldset_with_key", chars!"Ein Fieldset mit dem Schlüssel '{key}' wurde erwartet."),
   (chars!"expected_fieldsets_with_key", chars!"Nur Fieldsets mit dem Schlüssel '{key}' wurden erwartet."),
   (chars!"expected_list_with_key", chars!"Eine Liste mit dem Schlüssel '{key}' wurde erwartet."),
   (chars!"expected_lists_with_key", chars!"Nur Listen mit dem Schlüssel '{key}' wurden erwartet."),
   (chars!"expected_section_with_key", chars!"Eine Sektion mit dem Schlüssel '{key}' wurde erwartet."),
   (chars!"expected_sections_with_key", chars!"Nur Sektionen mit dem Schlüssel '{key}' wurden erwartet."),
   (chars!"expected_single_element_with_key", chars!"Nur ein einzelnes Element mit dem Schlüssel '{key}' wurde erwartet."),
   (chars!"expected_single_empty_with_key", chars!"Nur ein einzelnes leeres Element mit dem Schlüssel '{key}' wurde erwartet."),
   (chars!"expected_single_field_with_key", chars!"Nur ein einzelnes Feld mit dem Schlüssel '{key}' wurde erwartet."),
   (chars!"expected_single_fieldset_entry_with_key", chars!"Nur ein einzelner Fieldset Eintrag mit dem Schlüssel '{key}' wurde erwartet."),
   (chars!"expected_single_fieldset_with_key", chars!"Nur ein einzelnes Fieldset mit dem Schlüssel '{key}' wurde erwartet."),
   (chars!"expected_single_list_with_key", chars!"Nur eine einzelne Liste mit dem Schlüssel '{key}' wurde erwartet."),
   (chars!"expected_single_section_with_key", chars!"Nur eine einzelne Sektion mit dem Schlüssel '{key}' wurde erwartet."),
   (chars!"invalid_line", chars!"Zeile {line} folgt keinem spezifierten Muster."),
   (chars!"key_error", chars!"Es gibt ein Problem mit dem Schlüssel dieses Elements: {message}"),
   (chars!"missing_element_for_continuation", chars!"Zeile {line} enthält eine Zeilenfortsetzung ohne dass davor ein fortsetzbares Element begonnen wurde."),
   (chars!"missing_element_with_key", chars!"Das Element '{key}' fehlt - falls es angegeben wurde eventuell nach Tippfehlern Ausschau halten und auch die Gross/Kleinschreibung beachten."),
   (chars!"missing_empty_with_key", chars!"Das leere Element '{key}' fehlt - falls es angegeben wurde eventuell nach Tippfehlern Ausschau halten und auch die Gross/Kleinschreibung beachten."),
   (chars!"missing_field_value", chars!"Das Feld '{key}' muss einen Wert enthalten."),
   (chars!"missing_field_with_key", chars!"Das Feld '{key}' fehlt - falls es angegeben wurde eventuell nach Tippfehlern Ausschau halten und auch die Gross/Kleinschreibung beachten."),
   (chars!"missing_fieldset_entry_value", chars!"Der Fieldset Eintrag '{key}' muss einen Wert enthalten."),
   (chars!"missing_fieldset_entry_with_key", chars!"Der Fieldset Eintrag '{key}' fehlt - falls er angegeben wurde eventuell nach Tippfehlern Ausschau halten und auch die Gross/Kleinschreibung beachten."),
   (chars!"missing_fieldset_for_fieldset_entry", chars!"Zeile {line} enthält einen Fieldset Eintrag ohne dass davor ein Fieldset begonnen wurde."),
   (chars!"missing_fieldset_with_key", chars!"Das Fieldset '{key}' fehlt - falls es angegeben wurde eventuell nach Tippfehlern Ausschau halten und auch die Gross/Kleinschreibung beachten."),
   (chars!"missing_list_for_list_item", chars!"Zeile {line} enthält einen Listeneintrag ohne dass davor ein eine Liste begonnen wurde."),
   (chars!"missing_list_item_value", chars!"Die Liste '{key}' darf keine leeren Einträge enthalten."),
   (chars!"missing_list_with_key", chars!"Die Liste '{key}' fehlt - falls sie angegeben wurde eventuell nach Tippfehlern Ausschau halten und auch die Gross/Kleinschreibung beachten."),
   (chars!"missing_section_with_key", chars!"Die Sektion '{key}' fehlt - falls sie angegeben wurde eventuell nach Tippfehlern Ausschau halten und auch die Gross/Kleinschreibung beachten."),
   (chars!"non_section_element_not_found", chars!"In Zeile {line} soll das Nicht-Sektions Element '{key}' kopiert werden, es wurde aber nicht gefunden."),
   (chars!"section_hierarchy_layer_skip", chars!"Zeile {line} beginnt eine Sektion die mehr als eine Ebene tiefer liegt als die aktuelle."),
   (chars!"section_not_found", chars!"In Zeile {line} soll die Sektion '{key}' kopiert werden, sie wurde aber nicht gefunden."),
   (chars!"two_or_more_templates_found", chars!"Es gibt mindestens zwei Elemente mit dem Schlüssel '{key}' die hier zum kopieren in Frage kommen, es ist nicht klar welches kopiert werden soll."),
   (chars!"unterminated_escaped_key", chars!"In Zeile {line} wird der Schlüssel eines Elements escaped, jedoch wird diese Escape Sequenz bis zum Ende der Zeile nicht mehr beendet."),
   (chars!"unterminated_multiline_field", chars!"Das Mehrzeilenfeld '{key}' dass in Zeile {line} beginnt wird bis zum Ende des Dokuments nicht mehr beendet."),
   (chars!"value_error", chars!"Es gibt ein Problem mit dem Wert dieses Elements: {message}")]

/-- messages/es.py -/
def file_es : List (Str × Str) :=
  [(chars!"content_header", chars!"Contenido"),
   (chars!"expected_empty", chars!"Se esperaba un elemento vacío."),
   (chars!"expected_field", chars!"Se esperaba una casilla."),
   (chars!"expected_fields", chars!"Solo se esperaban casillas."),
   (chars!"expected_fieldset", chars!"Se esperaba una collecíon de casillas."),
   (chars!"expected_fieldset_entry", chars!"Se esperaba una casilla de collecíon."),
   (chars!"expected_fieldsets", chars!"Solo se esperaban colleciones de casillas."),
   (chars!"expected_list", chars!"Se esperaba una lista."),
   (chars!"expected_list_item", chars!"Se esperaba una entrada de lista."),
   (chars!"expected_lists", chars!"Solo se esperaban listas."),
   (chars!"expected_section", chars!"Se esperaba una sección."),
   (chars!"expected_sections", chars!"Solo se esperaban secciones."),
   (chars!"expected_single_element", chars!"Solo se esperaba un único elemento."),
   (chars!"expected_single_empty", chars!"Solo se esperaba un único elemento vacío."),
   (chars!"expected_single_field", chars!"Solo se esperaba una sola casilla."),
   (chars!"expected_single_fieldset", chars!"Solo se esperaba una sola collecíon de casillas."),
   (chars!"expected_single_fieldset_entry", chars!"Solo se esperaba una sola casilla de collecíon."),
   (chars!"expected_single_list", chars!"Solo se esperaba una sola lista."),
   (chars!"expected_single_section", chars!"Solo se esperaba una sola sección."),
   (chars!"gutter_header", chars!"Línea"),
   (chars!"missing_comment", chars!"Falta un comentario necesario para este elemento."),
   (chars!"missing_element", chars!"Se requiere un único elemento - puede tener cualquier clave."),
   (chars!"missing_empty", chars!"Se requiere un único elemento vacío - puede tener cualquier clave."),
   (chars!"missing_field", chars!"Se requiere una sola casilla - puede tener cualquier clave."),
   (chars!"missing_fieldset", chars!"Se requiere una sola collecíon de casillas - puede tener cualquier clave."),
   (chars!"missing_fieldset_entry", chars!"Se requiere una sola casilla de collecíon - puede tener cualquier clave."),
   (chars!"missing_list", chars!"Se requiere una sola lista - puede tener cualquier clave."),
   (chars!"missing_section", chars!"Se requiere una sola sección - puede tener cualquier clave."),
   (chars!"unexpected_element", chars!"Este elemento no se esperaba, averigua si es en el sitio correcto y que no contiene un error tipográfico la clave."),
   (chars!"comment_error", chars!"Hay un problema con el comentario de este elemento: {message}"),
   (chars!"cyclic_dependency", chars!"En la línea {line} '{key}' se copia en sí mismo."),
   (chars!"expected_empty_with_key", chars!"Se esperaba un elemento vacío con la clave '{key}'."),
   (chars!"expected_field_with_key", chars!"Se esperaba una casilla con la clave '{key}'."),
   (chars!"expected_fields_with_key", chars!"Solo se esperaban casillas con la clave '{key}'."),
   (chars!"expected_fieldset_with_key", chars!"Se esperaba una collecíon de casillas con la clave '{key}'."),
   (chars!"expected_fieldsets_with_key", chars!"Solo se esperaban colleciones de casillas con la clave '{key}'."),
   (chars!"expected_list_with_key", chars!"Se esperaba una lista con la clave '{key}'."),
   (chars!"expected_lists_with_key", chars!"Solo se esperaban listas con la clave '{key}'."),
   (chars!"expected_section_with_key", chars!"Se esperaba una sección con la clave '{key}'."),
   (chars!"expected_sections_with_key", chars!"Solo se esperaban secciones con la clave '{key}'."),
   (chars!"expected_single_element_with_key", chars!"Solo se esperaba un único elemento con la clave '{key}'."),
   (chars!"expected_single_empty_with_key", chars!"Solo se esperaba un único elemento vacío con la clave '{key}'."),
   (chars!"expected_single_field_with_key", chars!"Solo se esperaba una sola casilla con la clave '{key}'."),
   (chars!"expected_single_fieldset_entry_with_key", chars!"Solo se esperaba una sola casilla de collecíon con la clave '{key}'."),
   (chars!"expected_single_fieldset_with_key", chars!"Solo se esperaba una sola collecíon de casillas con la clave '{key}'."),
   (chars!"expected_single_list_with_key", chars!"Solo se esperaba una sola lista con la clave '{key}'."),
   (chars!"expected_single_section_with_key", chars!"Solo se esperaba una sola sección con la clave '{key}'."),
   (chars!"invalid_line", chars!"Línea {line} no sigue un patrón especificado."),
   (chars!"key_error", chars!"Hay un problema con la clave de este elemento: {message}"),
   (chars!"missing_element_for_continuation", chars!"Línea {line} contiene una continuacíon de línea sin un elemento que se puede continuar empezado antes."),
   (chars!"missing_element_with_key", chars!"Falta el elemento '{key}' - si se proporcionó, mira por errores ortográficos y también distingue entre mayúsculas y minúsculas."),
   (chars!"missing_empty_with_key", chars!"Falta el elemento vacío '{key}' - si se proporcionó, mira por errores ortográficos y también distingue entre mayúsculas y minúsculas."),
   (chars!"missing_field_value", chars!"La casilla '{key}' debe contener un valor."),
   (chars!"missing_field_with_key", chars!"Falta la casilla '{key}' - si se proporcionó, mira por errores ortográficos y también distingue entre mayúsculas y minúsculas."),
   (chars!"missing_fieldset_entry_value", chars!"La casilla de collecíon '{key}' debe contener un valor."),
   (chars!"missing_fieldset_entry_with_key", chars!"Falta la casilla de collecíon '{key}' - si se proporcionó, mira por errores ortográficos y también distingue entre mayúsculas y minúsculas."),
   (chars!"missing_fieldset_for_fieldset_entry", chars!"Línea {line} contiene una casilla de collecíon sin una collecíon de casillas empezada antes."),
   (chars!"missing_fieldset_with_key", chars!"Falta la collecíon de casillas '{key}' - si se proporcionó, mira por errores ortográficos y también distingue entre mayúsculas y minúsculas."),
   (chars!"missing_list_for_list_item", chars!"Línea {line} contiene una entrada de lista sin una lista empezada antes."),
   (chars!"missing_list_item_value", chars!"La lista '{key}' no debe contener entradas vacías."),
   (chars!"missing_list_with_key", chars!"Falta la lista '{key}' - si se proporcionó, mira por errores ortográficos y también distingue entre mayúsculas y minúsculas."),
   (chars!"missing_section_with_key", chars!"Falta la sección '{key}' - si se proporcionó, mira por errores ortográficos y también distingue entre mayúsculas y minúsculas."),
   (chars!"non_section_element_not_found", chars!"En la línea {line} debe ser copiado el elemento no sección '{key}', pero no se encontró."),
   (chars!"section_hierarchy_layer_skip", chars!"Línea {line} inicia una sección que es más de un nivel más bajo el actual."),
   (chars!"section_not_found", chars!"En la línea {line} debe ser copiado la sección '{key}', pero no se encontró."),
   (chars!"two_or_more_templates_found", chars!"Hay como mínimo dos elementos con la clave '{key}' que se clasifiquen para estar copiado, no está claro cual debe ser copiado."),
   (chars!"unterminated_escaped_key", chars!"En la línea {line}, la clave de un elemento se escapa, pero esta secuencia de escape no termina hasta el final de la línea."),
   (chars!"unterminated_multiline_field", chars!"La casilla de múltiples líneas '{key}' que comienza en la línea {line} no termina hasta el final del documento."),
   (chars!"value_error", chars!"Hay un problema con el valor de este elemento: {message}")]

/-- The file of a language. -/
def messageFile : Locale → List (Str × Str)
  | .en => file_en
  | .de => file_de
  | .es => file_es

end Eno.Spec
