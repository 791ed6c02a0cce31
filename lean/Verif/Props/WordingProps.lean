import Verif.Spec.Wordings
import Verif.Props.MessageProps

/-!
# More about C74: messages say what the message files say
-/

namespace Eno

open Spec

set_option maxRecDepth 20000 in
/-- In each language the text of a message is that of the message file, with the line number and the key (or the message of the program) inserted; it exists exactly if the file has it. -/
theorem C74_wording (l : Locale) {m : Msg} (hw : Worded m) : l.text m = wordingOf l m := by
  cases l
  all_goals
    cases m with
    | given s => exact absurd rfl (hw s)
    | named x k => cases x <;> cases k <;> rfl
    | _ => rfl

/-- In particular what `parse` says is what the message file says about the line or key that the error is about. -/
theorem C74_parse_wording {l : Locale} {r : Reporter} {source : Option Str} {input : Str} {t : Told} (h : parseIn l r source input = .error (.parseError t)) :
    ∃ m ind ques, wordingOf l m = some t.text ∧ Explains input m t.selection ind ques := by
  obtain ⟨m, ind, ques, h1, h2, h3, _⟩ := C74_parse h
  exact ⟨m, ind, ques, by rw [← C74_wording l h2]; exact h1, h3⟩

example : Worded (.cyclicDependency 12 (chars!"k")) ∧ wordingOf .en (.cyclicDependency 12 (chars!"k")) = some (chars!"In line 12 'k' is copied into itself.") := ⟨nofun, by decide +kernel⟩
example : wordingOf .de (.named .expectedListItem (some (chars!"k"))) = none := by decide +kernel

/-- What is said in a language. -/
private def says (l : Locale) (input : Str) : Option Str :=
  match parseIn l .text none input with
  | .error (.parseError t) => some t.text
  | _ => none

example : says .en (chars!"a: 1\nb") = some (chars!"Line 2 does not follow any specified pattern.") := by decide +kernel
example : says .de (chars!"a: 1\nb") = some (chars!"Zeile 2 folgt keinem spezifierten Muster.") := by decide +kernel
example : says .es (chars!"a: 1\nb") = some (chars!"Línea 2 no sigue un patrón especificado.") := by decide +kernel
example : says .en (chars!"a < 'b'") = some (chars!"In line 1 the non-section element ''b'' should be copied, but it was not found.") := by decide +kernel

end Eno
