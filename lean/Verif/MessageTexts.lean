import Verif.Messages

/-! # The texts of `messages/{en,de,es}.py`, generated by `tools/gen_messages.py` -/

namespace Eno

/-- The messages of messages/en.py:3-71; those that do not exist are `none`. -/
def Locale.en.pieces : Msg → Option (List Piece)
  | .given _ => some [.key]
  | .cyclicDependency _ _ => some [.lit (chars!"In line "), .line, .lit (chars!" '"), .key, .lit (chars!"' is copied into itself.")]
  | .invalidLine _ => some [.lit (chars!"Line "), .line, .lit (chars!" does not follow any specified pattern.")]
  | .missingElementForContinuation _ => some [.lit (chars!"Line "), .line, .lit (chars!" contains a line continuation without a continuable element being specified before.")]
  | .missingFieldsetForFieldsetEntry _ => some [.lit (chars!"Line "), .line, .lit (chars!" contains a fieldset entry without a fieldset being specified before.")]
  | .missingListForListItem _ => some [.lit (chars!"Line "), .line, .lit (chars!" contains a list item without a list being specified before.")]
  | .nonSectionElementNotFound _ _ => some [.lit (chars!"In line "), .line, .lit (chars!" the non-section element '"), .key, .lit (chars!"' should be copied, but it was not found.")]
  | .sectionHierarchyLayerSkip _ => some [.lit (chars!"Line "), .line, .lit (chars!" starts a section that is more than one level deeper than the current one.")]
  | .sectionNotFound _ _ => some [.lit (chars!"In line "), .line, .lit (chars!" the section '"), .key, .lit (chars!"' should be copied, but it was not found.")]
  | .unterminatedEscapedKey _ => some [.lit (chars!"In line "), .line, .lit (chars!" the key of an element is escaped, but the escape sequence is not terminated until the end of the line.")]
  | .twoOrMoreTemplatesFound _ => some [.lit (chars!"There are at least two elements with the key '"), .key, .lit (chars!"' that qualify for being copied here, it is not clear which to copy.")]
  | .unterminatedMultilineField _ _ => some [.lit (chars!"The multiline field '"), .key, .lit (chars!"' starting in line "), .line, .lit (chars!" is not terminated until the end of the document.")]
  | .commentError _ => some [.lit (chars!"There is a problem with the comment of this element: "), .key]
  | .keyError _ => some [.lit (chars!"There is a problem with the key of this element: "), .key]
  | .valueError _ => some [.lit (chars!"There is a problem with the value of this element: "), .key]
  | .missingComment => some [.lit (chars!"A required comment for this element is missing.")]
  | .missingFieldValue _ => some [.lit (chars!"The field '"), .key, .lit (chars!"' must contain a value.")]
  | .missingFieldsetEntryValue _ => some [.lit (chars!"The fieldset entry '"), .key, .lit (chars!"' must contain a value.")]
  | .missingListItemValue _ => some [.lit (chars!"The list '"), .key, .lit (chars!"' may not contain empty items.")]
  | .unexpectedElement => some [.lit (chars!"This element was not expected, make sure it is at the right place in the document and that its key is not mis-typed.")]
  | .named .missingElement none => some [.lit (chars!"A single element is required - it can have any key.")]
  | .named .missingElement (some _) => some [.lit (chars!"The element '"), .key, .lit (chars!"' is missing - in case it has been specified look for typos and also check for correct capitalization.")]
  | .named .missingEmpty none => some [.lit (chars!"A single empty element is required - it can have any key.")]
  | .named .missingEmpty (some _) => some [.lit (chars!"The empty element '"), .key, .lit (chars!"' is missing - in case it has been specified look for typos and also check for correct capitalization.")]
  | .named .missingField none => some [.lit (chars!"A single field is required - it can have any key.")]
  | .named .missingField (some _) => some [.lit (chars!"The field '"), .key, .lit (chars!"' is missing - in case it has been specified look for typos and also check for correct capitalization.")]
  | .named .missingFieldset none => some [.lit (chars!"A single fieldset is required - it can have any key.")]
  | .named .missingFieldset (some _) => some [.lit (chars!"The fieldset '"), .key, .lit (chars!"' is missing - in case it has been specified look for typos and also check for correct capitalization.")]
  | .named .missingFieldsetEntry none => some [.lit (chars!"A single fieldset entry is required - it can have any key.")]
  | .named .missingFieldsetEntry (some _) => some [.lit (chars!"The fieldset entry '"), .key, .lit (chars!"' is missing - in case it has been specified look for typos and also check for correct capitalization.")]
  | .named .missingList none => some [.lit (chars!"A single list is required - it can have any key.")]
  | .named .missingList (some _) => some [.lit (chars!"The list '"), .key, .lit (chars!"' is missing - in case it has been specified look for typos and also check for correct capitalization.")]
  | .named .missingSection none => some [.lit (chars!"A single section is required - it can have any key.")]
  | .named .missingSection (some _) => some [.lit (chars!"The section '"), .key, .lit (chars!"' is missing - in case it has been specified look for typos and also check for correct capitalization.")]
  | .named .expectedEmpty none => some [.lit (chars!"An empty element was expected.")]
  | .named .expectedEmpty (some _) => some [.lit (chars!"An empty element with the key '"), .key, .lit (chars!"' was expected.")]
  | .named .expectedField none => some [.lit (chars!"A field was expected.")]
  | .named .expectedField (some _) => some [.lit (chars!"A field with the key '"), .key, .lit (chars!"' was expected.")]
  | .named .expectedFields none => some [.lit (chars!"Only fields were expected.")]
  | .named .expectedFields (some _) => some [.lit (chars!"Only fields with the key '"), .key, .lit (chars!"' were expected.")]
  | .named .expectedFieldset none => some [.lit (chars!"A fieldset was expected.")]
  | .named .expectedFieldset (some _) => some [.lit (chars!"A fieldset with the key '"), .key, .lit (chars!"' was expected.")]
  | .named .expectedFieldsets none => some [.lit (chars!"Only fieldsets were expected.")]
  | .named .expectedFieldsets (some _) => some [.lit (chars!"Only fieldsets with the key '"), .key, .lit (chars!"' were expected.")]
  | .named .expectedList none => some [.lit (chars!"A list was expected.")]
  | .named .expectedList (some _) => some [.lit (chars!"A list with the key '"), .key, .lit (chars!"' was expected.")]
  | .named .expectedLists none => some [.lit (chars!"Only lists were expected.")]
  | .named .expectedLists (some _) => some [.lit (chars!"Only lists with the key '"), .key, .lit (chars!"' were expected.")]
  | .named .expectedSection none => some [.lit (chars!"A section was expected.")]
  | .named .expectedSection (some _) => some [.lit (chars!"A section with the key '"), .key, .lit (chars!"' was expected.")]
  | .named .expectedSections none => some [.lit (chars!"Only sections were expected.")]
  | .named .expectedSections (some _) => some [.lit (chars!"Only sections with the key '"), .key, .lit (chars!"' were expected.")]
  | .named .expectedFieldsetEntry none => some [.lit (chars!"A fieldset entry was expected.")]
  | .named .expectedFieldsetEntry (some _) => none
  | .named .expectedListItem none => some [.lit (chars!"A list item was expected.")]
  | .named .expectedListItem (some _) => none
  | .named .expectedSingleElement none => some [.lit (chars!"Only a single element was expected.")]
  | .named .expectedSingleElement (some _) => some [.lit (chars!"Only a single element with the key '"), .key, .lit (chars!"' was expected.")]
  | .named .expectedSingleEmpty none => some [.lit (chars!"Only a single empty element was expected.")]
  | .named .expectedSingleEmpty (some _) => some [.lit (chars!"Only a single empty element with the key '"), .key, .lit (chars!"' was expected.")]
  | .named .expectedSingleField none => some [.lit (chars!"Only a single field was expected.")]
  | .named .expectedSingleField (some _) => some [.lit (chars!"Only a single field with the key '"), .key, .lit (chars!"' was expected.")]
  | .named .expectedSingleFieldset none => some [.lit (chars!"Only a single fieldset was expected.")]
  | .named .expectedSingleFieldset (some _) => some [.lit (chars!"Only a single fieldset with the key '"), .key, .lit (chars!"' was expected.")]
  | .named .expectedSingleFieldsetEntry none => some [.lit (chars!"Only a single fieldset entry was expected.")]
  | .named .expectedSingleFieldsetEntry (some _) => some [.lit (chars!"Only a single fieldset entry with the key '"), .key, .lit (chars!"' was expected.")]
  | .named .expectedSingleList none => some [.lit (chars!"Only a single list was expected.")]
  | .named .expectedSingleList (some _) => some [.lit (chars!"Only a single list with the key '"), .key, .lit (chars!"' was expected.")]
  | .named .expectedSingleSection none => some [.lit (chars!"Only a single section was expected.")]
  | .named .expectedSingleSection (some _) => some [.lit (chars!"Only a single section with the key '"), .key, .lit (chars!"' was expected.")]

/-- messages/en.py:22 -/
def Locale.en.gutterHeader : Str := chars!"Line"

/-- messages/en.py:3 -/
def Locale.en.contentHeader : Str := chars!"Content"

/-- The messages of messages/de.py:3-71; those that do not exist are `none`. -/
def Locale.de.pieces : Msg → Option (List Piece)
  | .given _ => some [.key]
  | .cyclicDependency _ _ => some [.lit (chars!"In Zeile "), .line, .lit (chars!" wird '"), .key, .lit (chars!"' in sich selbst kopiert.")]
  | .invalidLine _ => some [.lit (chars!"Zeile "), .line, .lit (chars!" folgt keinem spezifierten Muster.")]
  | .missingElementForContinuation _ => some [.lit (chars!"Zeile "), .line, .lit (chars!" enthält eine Zeilenfortsetzung ohne dass davor ein fortsetzbares Element begonnen wurde.")]
  | .missingFieldsetForFieldsetEntry _ => some [.lit (chars!"Zeile "), .line, .lit (chars!" enthält einen Fieldset Eintrag ohne dass davor ein Fieldset begonnen wurde.")]
  | .missingListForListItem _ => some [.lit (chars!"Zeile "), .line, .lit (chars!" enthält einen Listeneintrag ohne dass davor ein eine Liste begonnen wurde.")]
  | .nonSectionElementNotFound _ _ => some [.lit (chars!"In Zeile "), .line, .lit (chars!" soll das Nicht-Sektions Element '"), .key, .lit (chars!"' kopiert werden, es wurde aber nicht gefunden.")]
  | .sectionHierarchyLayerSkip _ => some [.lit (chars!"Zeile "), .line, .lit (chars!" beginnt eine Sektion die mehr als eine Ebene tiefer liegt als die aktuelle.")]
  | .sectionNotFound _ _ => some [.lit (chars!"In Zeile "), .line, .lit (chars!" soll die Sektion '"), .key, .lit (chars!"' kopiert werden, sie wurde aber nicht gefunden.")]
  | .unterminatedEscapedKey _ => some [.lit (chars!"In Zeile "), .line, .lit (chars!" wird der Schlüssel eines Elements escaped, jedoch wird diese Escape Sequenz bis zum Ende der Zeile nicht mehr beendet.")]
  | .twoOrMoreTemplatesFound _ => some [.lit (chars!"Es gibt mindestens zwei Elemente mit dem Schlüssel '"), .key, .lit (chars!"' die hier zum kopieren in Frage kommen, es ist nicht klar welches kopiert werden soll.")]
  | .unterminatedMultilineField _ _ => some [.lit (chars!"Das Mehrzeilenfeld '"), .key, .lit (chars!"' dass in Zeile "), .line, .lit (chars!" beginnt wird bis zum Ende des Dokuments nicht mehr beendet.")]
  | .commentError _ => some [.lit (chars!"Es gibt ein Problem mit dem Kommentar dieses Elements: "), .key]
  | .keyError _ => some [.lit (chars!"Es gibt ein Problem mit dem Schlüssel dieses Elements: "), .key]
  | .valueError _ => some [.lit (chars!"Es gibt ein Problem mit dem Wert dieses Elements: "), .key]
  | .missingComment => some [.lit (chars!"Ein erforderlicher Kommentar zu diesem Feld fehlt.")]
  | .missingFieldValue _ => some [.lit (chars!"Das Feld '"), .key, .lit (chars!"' muss einen Wert enthalten.")]
  | .missingFieldsetEntryValue _ => some [.lit (chars!"Der Fieldset Eintrag '"), .key, .lit (chars!"' muss einen Wert enthalten.")]
  | .missingListItemValue _ => some [.lit (chars!"Die Liste '"), .key, .lit (chars!"' darf keine leeren Einträge enthalten.")]
  | .unexpectedElement => some [.lit (chars!"Dieses Element wurde nicht erwartet, prüfe ob es am richtigen Platz ist und dass der Schlüssel keine Tippfehler enthält.")]
  | .named .missingElement none => some [.lit (chars!"Ein einzelnes Element ist erforderlich - es kann einen beliebigen Schlüssel haben.")]
  | .named .missingElement (some _) => some [.lit (chars!"Das Element '"), .key, .lit (chars!"' fehlt - falls es angegeben wurde eventuell nach Tippfehlern Ausschau halten und auch die Gross/Kleinschreibung beachten.")]
  | .named .missingEmpty none => some [.lit (chars!"Ein einzelnes leeres Element ist erforderlich - es kann einen beliebigen Schlüssel haben.")]
  | .named .missingEmpty (some _) => some [.lit (chars!"Das leere Element '"), .key, .lit (chars!"' fehlt - falls es angegeben wurde eventuell nach Tippfehlern Ausschau halten und auch die Gross/Kleinschreibung beachten.")]
  | .named .missingField none => some [.lit (chars!"Ein einzelnes Feld ist erforderlich - es kann einen beliebigen Schlüssel haben.")]
  | .named .missingField (some _) => some [.lit (chars!"Das Feld '"), .key, .lit (chars!"' fehlt - falls es angegeben wurde eventuell nach Tippfehlern Ausschau halten und auch die Gross/Kleinschreibung beachten.")]
  | .named .missingFieldset none => some [.lit (chars!"Ein einzelnes Fieldset ist erforderlich - es kann einen beliebigen Schlüssel haben.")]
  | .named .missingFieldset (some _) => some [.lit (chars!"Das Fieldset '"), .key, .lit (chars!"' fehlt - falls es angegeben wurde eventuell nach Tippfehlern Ausschau halten und auch die Gross/Kleinschreibung beachten.")]
  | .named .missingFieldsetEntry none => some [.lit (chars!"Ein einzelner Fieldset Eintrag ist erforderlich - er kann einen beliebigen Schlüssel haben.")]
  | .named .missingFieldsetEntry (some _) => some [.lit (chars!"Der Fieldset Eintrag '"), .key, .lit (chars!"' fehlt - falls er angegeben wurde eventuell nach Tippfehlern Ausschau halten und auch die Gross/Kleinschreibung beachten.")]
  | .named .missingList none => some [.lit (chars!"Eine einzelne Liste ist erforderlich - sie kann einen beliebigen Schlüssel haben.")]
  | .named .missingList (some _) => some [.lit (chars!"Die Liste '"), .key, .lit (chars!"' fehlt - falls sie angegeben wurde eventuell nach Tippfehlern Ausschau halten und auch die Gross/Kleinschreibung beachten.")]
  | .named .missingSection none => some [.lit (chars!"Eine einzelne Sektion ist erforderlich - sie kann einen beliebigen Schlüssel haben.")]
  | .named .missingSection (some _) => some [.lit (chars!"Die Sektion '"), .key, .lit (chars!"' fehlt - falls sie angegeben wurde eventuell nach Tippfehlern Ausschau halten und auch die Gross/Kleinschreibung beachten.")]
  | .named .expectedEmpty none => some [.lit (chars!"Ein leeres Element wurde erwartet.")]
  | .named .expectedEmpty (some _) => some [.lit (chars!"Ein leeres Element mit dem Schlüssel '"), .key, .lit (chars!"' wurde erwartet.")]
  | .named .expectedField none => some [.lit (chars!"Ein Feld wurde erwartet.")]
  | .named .expectedField (some _) => some [.lit (chars!"Ein Feld mit dem Schlüssel '"), .key, .lit (chars!"' wurde erwartet.")]
  | .named .expectedFields none => some [.lit (chars!"Nur Felder wurden erwartet.")]
  | .named .expectedFields (some _) => some [.lit (chars!"Nur Felder mit dem Schlüssel '"), .key, .lit (chars!"' wurden erwartet.")]
  | .named .expectedFieldset none => some [.lit (chars!"Ein Fieldset wurde erwartet.")]
  | .named .expectedFieldset (some _) => some [.lit (chars!"Ein Fieldset mit dem Schlüssel '"), .key, .lit (chars!"' wurde erwartet.")]
  | .named .expectedFieldsets none => some [.lit (chars!"Nur Fieldsets wurden erwartet.")]
  | .named .expectedFieldsets (some _) => some [.lit (chars!"Nur Fieldsets mit dem Schlüssel '"), .key, .lit (chars!"' wurden erwartet.")]
  | .named .expectedList none => some [.lit (chars!"Eine Liste wurde erwartet.")]
  | .named .expectedList (some _) => some [.lit (chars!"Eine Liste mit dem Schlüssel '"), .key, .lit (chars!"' wurde erwartet.")]
  | .named .expectedLists none => some [.lit (chars!"Nur Listen wurden erwartet.")]
  | .named .expectedLists (some _) => some [.lit (chars!"Nur Listen mit dem Schlüssel '"), .key, .lit (chars!"' wurden erwartet.")]
  | .named .expectedSection none => some [.lit (chars!"Eine Sektion wurde erwartet.")]
  | .named .expectedSection (some _) => some [.lit (chars!"Eine Sektion mit dem Schlüssel '"), .key, .lit (chars!"' wurde erwartet.")]
  | .named .expectedSections none => some [.lit (chars!"Nur Sektionen wurden erwartet.")]
  | .named .expectedSections (some _) => some [.lit (chars!"Nur Sektionen mit dem Schlüssel '"), .key, .lit (chars!"' wurden erwartet.")]
  | .named .expectedFieldsetEntry none => some [.lit (chars!"Ein Fieldset Eintrag wurde erwartet.")]
  | .named .expectedFieldsetEntry (some _) => none
  | .named .expectedListItem none => some [.lit (chars!"Ein Listen Eintrag wurde erwartet.")]
  | .named .expectedListItem (some _) => none
  | .named .expectedSingleElement none => some [.lit (chars!"Nur ein einzelnes Element wurde erwartet.")]
  | .named .expectedSingleElement (some _) => some [.lit (chars!"Nur ein einzelnes Element mit dem Schlüssel '"), .key, .lit (chars!"' wurde erwartet.")]
  | .named .expectedSingleEmpty none => some [.lit (chars!"Nur ein einzelnes leeres Element wurde erwartet.")]
  | .named .expectedSingleEmpty (some _) => some [.lit (chars!"Nur ein einzelnes leeres Element mit dem Schlüssel '"), .key, .lit (chars!"' wurde erwartet.")]
  | .named .expectedSingleField none => some [.lit (chars!"Nur ein einzelnes Feld wurde erwartet.")]
  | .named .expectedSingleField (some _) => some [.lit (chars!"Nur ein einzelnes Feld mit dem Schlüssel '"), .key, .lit (chars!"' wurde erwartet.")]
  | .named .expectedSingleFieldset none => some [.lit (chars!"Nur ein einzelnes Fieldset wurde erwartet.")]
  | .named .expectedSingleFieldset (some _) => some [.lit (chars!"Nur ein einzelnes Fieldset mit dem Schlüssel '"), .key, .lit (chars!"' wurde erwartet.")]
  | .named .expectedSingleFieldsetEntry none => some [.lit (chars!"Nur ein einzelner Fieldset Eintrag wurde erwartet.")]
  | .named .expectedSingleFieldsetEntry (some _) => some [.lit (chars!"Nur ein einzelner Fieldset Eintrag mit dem Schlüssel '"), .key, .lit (chars!"' wurde erwartet.")]
  | .named .expectedSingleList none => some [.lit (chars!"Nur eine einzelne Liste wurde erwartet.")]
  | .named .expectedSingleList (some _) => some [.lit (chars!"Nur eine einzelne Liste mit dem Schlüssel '"), .key, .lit (chars!"' wurde erwartet.")]
  | .named .expectedSingleSection none => some [.lit (chars!"Nur eine einzelne Sektion wurde erwartet.")]
  | .named .expectedSingleSection (some _) => some [.lit (chars!"Nur eine einzelne Sektion mit dem Schlüssel '"), .key, .lit (chars!"' wurde erwartet.")]

/-- messages/de.py:22 -/
def Locale.de.gutterHeader : Str := chars!"Zeile"

/-- messages/de.py:3 -/
def Locale.de.contentHeader : Str := chars!"Inhalt"

/-- The messages of messages/es.py:3-71; those that do not exist are `none`. -/
def Locale.es.pieces : Msg → Option (List Piece)
  | .given _ => some [.key]
  | .cyclicDependency _ _ => some [.lit (chars!"En la línea "), .line, .lit (chars!" '"), .key, .lit (chars!"' se copia en sí mismo.")]
  | .invalidLine _ => some [.lit (chars!"Línea "), .line, .lit (chars!" no sigue un patrón especificado.")]
  | .missingElementForContinuation _ => some [.lit (chars!"Línea "), .line, .lit (chars!" contiene una continuacíon de línea sin un elemento que se puede continuar empezado antes.")]
  | .missingFieldsetForFieldsetEntry _ => some [.lit (chars!"Línea "), .line, .lit (chars!" contiene una casilla de collecíon sin una collecíon de casillas empezada antes.")]
  | .missingListForListItem _ => some [.lit (chars!"Línea "), .line, .lit (chars!" contiene una entrada de lista sin una lista empezada antes.")]
  | .nonSectionElementNotFound _ _ => some [.lit (chars!"En la línea "), .line, .lit (chars!" debe ser copiado el elemento no sección '"), .key, .lit (chars!"', pero no se encontró.")]
  | .sectionHierarchyLayerSkip _ => some [.lit (chars!"Línea "), .line, .lit (chars!" inicia una sección que es más de un nivel más bajo el actual.")]
  | .sectionNotFound _ _ => some [.lit (chars!"En la línea "), .line, .lit (chars!" debe ser copiado la sección '"), .key, .lit (chars!"', pero no se encontró.")]
  | .unterminatedEscapedKey _ => some [.lit (chars!"En la línea "), .line, .lit (chars!", la clave de un elemento se escapa, pero esta secuencia de escape no termina hasta el final de la línea.")]
  | .twoOrMoreTemplatesFound _ => some [.lit (chars!"Hay como mínimo dos elementos con la clave '"), .key, .lit (chars!"' que se clasifiquen para estar copiado, no está claro cual debe ser copiado.")]
  | .unterminatedMultilineField _ _ => some [.lit (chars!"La casilla de múltiples líneas '"), .key, .lit (chars!"' que comienza en la línea "), .line, .lit (chars!" no termina hasta el final del documento.")]
  | .commentError _ => some [.lit (chars!"Hay un problema con el comentario de este elemento: "), .key]
  | .keyError _ => some [.lit (chars!"Hay un problema con la clave de este elemento: "), .key]
  | .valueError _ => some [.lit (chars!"Hay un problema con el valor de este elemento: "), .key]
  | .missingComment => some [.lit (chars!"Falta un comentario necesario para este elemento.")]
  | .missingFieldValue _ => some [.lit (chars!"La casilla '"), .key, .lit (chars!"' debe contener un valor.")]
  | .missingFieldsetEntryValue _ => some [.lit (chars!"La casilla de collecíon '"), .key, .lit (chars!"' debe contener un valor.")]
  | .missingListItemValue _ => some [.lit (chars!"La lista '"), .key, .lit (chars!"' no debe contener entradas vacías.")]
  | .unexpectedElement => some [.lit (chars!"Este elemento no se esperaba, averigua si es en el sitio correcto y que no contiene un error tipográfico la clave.")]
  | .named .missingElement none => some [.lit (chars!"Se requiere un único elemento - puede tener cualquier clave.")]
  | .named .missingElement (some _) => some [.lit (chars!"Falta el elemento '"), .key, .lit (chars!"' - si se proporcionó, mira por errores ortográficos y también distingue entre mayúsculas y minúsculas.")]
  | .named .missingEmpty none => some [.lit (chars!"Se requiere un único elemento vacío - puede tener cualquier clave.")]
  | .named .missingEmpty (some _) => some [.lit (chars!"Falta el elemento vacío '"), .key, .lit (chars!"' - si se proporcionó, mira por errores ortográficos y también distingue entre mayúsculas y minúsculas.")]
  | .named .missingField none => some [.lit (chars!"Se requiere una sola casilla - puede tener cualquier clave.")]
  | .named .missingField (some _) => some [.lit (chars!"Falta la casilla '"), .key, .lit (chars!"' - si se proporcionó, mira por errores ortográficos y también distingue entre mayúsculas y minúsculas.")]
  | .named .missingFieldset none => some [.lit (chars!"Se requiere una sola collecíon de casillas - puede tener cualquier clave.")]
  | .named .missingFieldset (some _) => some [.lit (chars!"Falta la collecíon de casillas '"), .key, .lit (chars!"' - si se proporcionó, mira por errores ortográficos y también distingue entre mayúsculas y minúsculas.")]
  | .named .missingFieldsetEntry none => some [.lit (chars!"Se requiere una sola casilla de collecíon - puede tener cualquier clave.")]
  | .named .missingFieldsetEntry (some _) => some [.lit (chars!"Falta la casilla de collecíon '"), .key, .lit (chars!"' - si se proporcionó, mira por errores ortográficos y también distingue entre mayúsculas y minúsculas.")]
  | .named .missingList none => some [.lit (chars!"Se requiere una sola lista - puede tener cualquier clave.")]
  | .named .missingList (some _) => some [.lit (chars!"Falta la lista '"), .key, .lit (chars!"' - si se proporcionó, mira por errores ortográficos y también distingue entre mayúsculas y minúsculas.")]
  | .named .missingSection none => some [.lit (chars!"Se requiere una sola sección - puede tener cualquier clave.")]
  | .named .missingSection (some _) => some [.lit (chars!"Falta la sección '"), .key, .lit (chars!"' - si se proporcionó, mira por errores ortográficos y también distingue entre mayúsculas y minúsculas.")]
  | .named .expectedEmpty none => some [.lit (chars!"Se esperaba un elemento vacío.")]
  | .named .expectedEmpty (some _) => some [.lit (chars!"Se esperaba un elemento vacío con la clave '"), .key, .lit (chars!"'.")]
  | .named .expectedField none => some [.lit (chars!"Se esperaba una casilla.")]
  | .named .expectedField (some _) => some [.lit (chars!"Se esperaba una casilla con la clave '"), .key, .lit (chars!"'.")]
  | .named .expectedFields none => some [.lit (chars!"Solo se esperaban casillas.")]
  | .named .expectedFields (some _) => some [.lit (chars!"Solo se esperaban casillas con la clave '"), .key, .lit (chars!"'.")]
  | .named .expectedFieldset none => some [.lit (chars!"Se esperaba una collecíon de casillas.")]
  | .named .expectedFieldset (some _) => some [.lit (chars!"Se esperaba una collecíon de casillas con la clave '"), .key, .lit (chars!"'.")]
  | .named .expectedFieldsets none => some [.lit (chars!"Solo se esperaban colleciones de casillas.")]
  | .named .expectedFieldsets (some _) => some [.lit (chars!"Solo se esperaban colleciones de casillas con la clave '"), .key, .lit (chars!"'.")]
  | .named .expectedList none => some [.lit (chars!"Se esperaba una lista.")]
  | .named .expectedList (some _) => some [.lit (chars!"Se esperaba una lista con la clave '"), .key, .lit (chars!"'.")]
  | .named .expectedLists none => some [.lit (chars!"Solo se esperaban listas.")]
  | .named .expectedLists (some _) => some [.lit (chars!"Solo se esperaban listas con la clave '"), .key, .lit (chars!"'.")]
  | .named .expectedSection none => some [.lit (chars!"Se esperaba una sección.")]
  | .named .expectedSection (some _) => some [.lit (chars!"Se esperaba una sección con la clave '"), .key, .lit (chars!"'.")]
  | .named .expectedSections none => some [.lit (chars!"Solo se esperaban secciones.")]
  | .named .expectedSections (some _) => some [.lit (chars!"Solo se esperaban secciones con la clave '"), .key, .lit (chars!"'.")]
  | .named .expectedFieldsetEntry none => some [.lit (chars!"Se esperaba una casilla de collecíon.")]
  | .named .expectedFieldsetEntry (some _) => none
  | .named .expectedListItem none => some [.lit (chars!"Se esperaba una entrada de lista.")]
  | .named .expectedListItem (some _) => none
  | .named .expectedSingleElement none => some [.lit (chars!"Solo se esperaba un único elemento.")]
  | .named .expectedSingleElement (some _) => some [.lit (chars!"Solo se esperaba un único elemento con la clave '"), .key, .lit (chars!"'.")]
  | .named .expectedSingleEmpty none => some [.lit (chars!"Solo se esperaba un único elemento vacío.")]
  | .named .expectedSingleEmpty (some _) => some [.lit (chars!"Solo se esperaba un único elemento vacío con la clave '"), .key, .lit (chars!"'.")]
  | .named .expectedSingleField none => some [.lit (chars!"Solo se esperaba una sola casilla.")]
  | .named .expectedSingleField (some _) => some [.lit (chars!"Solo se esperaba una sola casilla con la clave '"), .key, .lit (chars!"'.")]
  | .named .expectedSingleFieldset none => some [.lit (chars!"Solo se esperaba una sola collecíon de casillas.")]
  | .named .expectedSingleFieldset (some _) => some [.lit (chars!"Solo se esperaba una sola collecíon de casillas con la clave '"), .key, .lit (chars!"'.")]
  | .named .expectedSingleFieldsetEntry none => some [.lit (chars!"Solo se esperaba una sola casilla de collecíon.")]
  | .named .expectedSingleFieldsetEntry (some _) => some [.lit (chars!"Solo se esperaba una sola casilla de collecíon con la clave '"), .key, .lit (chars!"'.")]
  | .named .expectedSingleList none => some [.lit (chars!"Solo se esperaba una sola lista.")]
  | .named .expectedSingleList (some _) => some [.lit (chars!"Solo se esperaba una sola lista con la clave '"), .key, .lit (chars!"'.")]
  | .named .expectedSingleSection none => some [.lit (chars!"Solo se esperaba una sola sección.")]
  | .named .expectedSingleSection (some _) => some [.lit (chars!"Solo se esperaba una sola sección con la clave '"), .key, .lit (chars!"'.")]

/-- messages/es.py:22 -/
def Locale.es.gutterHeader : Str := chars!"Línea"

/-- messages/es.py:3 -/
def Locale.es.contentHeader : Str := chars!"Contenido"

/-- The pieces of a message in a language. -/
def Locale.pieces : Locale → Msg → Option (List Piece)
  | .en => en.pieces
  | .de => de.pieces
  | .es => es.pieces

/-- The word above the snippet. -/
def Locale.gutterHeader : Locale → Str
  | .en => en.gutterHeader
  | .de => de.gutterHeader
  | .es => es.gutterHeader

/-- The word above the snippet. -/
def Locale.contentHeader : Locale → Str
  | .en => en.contentHeader
  | .de => de.contentHeader
  | .es => es.contentHeader

end Eno
