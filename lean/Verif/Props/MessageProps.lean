import Verif.Proofs.Wording
import Verif.Props.TerminalProps
import Verif.Props.DiagnosisProps
import Verif.Props.ErrorProps

/-!
# C74: what errors say in the languages of the library
-/

namespace Eno

open Spec

variable {l l' : Locale} {m m' : Msg} {s : Str} {r r' : Reporter} {source source' : Option Str} {input : Str} {t t' : Told}

/-- A message that is made by the library. -/
def Spec.Worded (m : Msg) : Prop := ∀ s, m ≠ .given s

theorem all_different (l : Locale) : allDifferent l.all = true := by
  cases l
  · decide +kernel
  · decide +kernel
  · decide +kernel

theorem all_legible (l : Locale) : (shapes.all fun x => match l.pieces x with | some ps => legible x ps | none => true) = true := by
  cases l
  · decide +kernel
  · decide +kernel
  · decide +kernel

theorem different_comm (ps qs : List Piece) : (∀ n k n' k', fillIn n k ps ≠ fillIn n' k' qs) → ∀ n k n' k', fillIn n k qs ≠ fillIn n' k' ps := fun h _ _ _ _ e => h _ _ _ _ e.symm

/-- Of a list without a pair that agrees, elements that agree are at the same place. -/
theorem apart_of_all {f : Msg → Option (List Piece)} : ∀ {xs : List Msg} {x y : Msg} {ps qs : List Piece}, allDifferent (xs.filterMap f) = true → x ∈ xs → y ∈ xs → f x = some ps →
    f y = some qs → x = y ∨ ∀ n k n' k', fillIn n k ps ≠ fillIn n' k' qs := by
  intro xs
  induction xs with
  | nil => intro x y ps qs _ hx; cases hx
  | cons z xs ih =>
    intro x y ps qs h hx hy ex ey
    have rest : allDifferent (xs.filterMap f) = true := by
      rw [List.filterMap_cons] at h
      cases hz : f z with
      | none => rw [hz] at h; exact h
      | some zs => rw [hz] at h; simp only [allDifferent, Bool.and_eq_true] at h; exact h.2
    have first : ∀ {w : Msg} {ws vs : List Piece}, w ∈ xs → f w = some ws → f z = some vs → ∀ n k n' k', fillIn n k vs ≠ fillIn n' k' ws := by
      intro w ws vs hw ew ez
      rw [List.filterMap_cons, ez] at h
      simp only [allDifferent, Bool.and_eq_true, List.all_eq_true] at h
      intro n k n' k'
      exact different_sound (h.1 ws (List.mem_filterMap.2 ⟨w, hw, ew⟩))
    rcases List.mem_cons.1 hx with rfl | mx
    · rcases List.mem_cons.1 hy with rfl | my
      · exact .inl rfl
      · exact .inr (first my ey ex)
    · rcases List.mem_cons.1 hy with rfl | my
      · exact .inr (different_comm _ _ (first mx ex ey))
      · exact ih rest mx my ex ey

/-- The text of a message of the library tells which message it is, with which line and which key, whatever the keys are. -/
theorem C74_unambiguous (hw : Worded m) (hw' : Worded m') (h : l.text m = some s) (h' : l.text m' = some s) : m = m' := by
  obtain ⟨ps, hp, e⟩ := Option.map_eq_some_iff.1 h
  obtain ⟨qs, hq, e'⟩ := Option.map_eq_some_iff.1 h'
  have ep : l.pieces m.shape = some ps := by rw [pieces_shape]; exact hp
  have eq : l.pieces m'.shape = some qs := by rw [pieces_shape]; exact hq
  rcases apart_of_all (all_different l) (shape_mem hw) (shape_mem hw') ep eq with hs | hd
  · have : ps = qs := by rw [hs, eq] at ep; injection ep with ep; exact ep.symm
    subst this
    have hl := List.all_eq_true.1 (all_legible l) _ (shape_mem hw)
    rw [ep] at hl
    exact legible_sound hs hl (e.trans e'.symm)
  · exact absurd (e.trans e'.symm) (hd _ _ _ _)

/-- Every message has a text in every language, apart from two that do not exist with a key. -/
theorem C74_exists (l : Locale) (m : Msg) : (∃ s, l.text m = some s) ↔ ∀ k, m ≠ .named .expectedFieldsetEntry (some k) ∧ m ≠ .named .expectedListItem (some k) := by
  have : l.text m = none ↔ l.pieces m = none := by simp [Locale.text]
  constructor
  · rintro ⟨s, h⟩ k
    constructor <;> rintro rfl <;> cases l <;> cases h
  · intro h
    cases hx : l.text m with
    | some s => exact ⟨s, rfl⟩
    | none =>
      rw [this] at hx
      cases m with
      | named x y =>
        cases y with
        | none => cases l <;> cases x <;> cases hx
        | some k =>
          cases x with
          | expectedFieldsetEntry => exact absurd rfl (h k).1
          | expectedListItem => exact absurd rfl (h k).2
          | _ => cases l <;> cases hx
      | _ => cases l <;> cases hx

theorem explains_worded {input : Str} {sel : Selection} {a b : Nat → Prop} (E : Explains input m sel a b) : Worded m ∧ ∀ n k, m ≠ .named n k := by
  cases E <;> exact ⟨by intro s e; (try cases e), by intro n k e; (try cases e)⟩

/-- The line above a snippet in plain text. -/
def Spec.headLine : Locale → Str
  | .en => chars!"   Line | Content\n"
  | .de => chars!"  Zeile | Inhalt\n"
  | .es => chars!"  Línea | Contenido\n"

/-- A snippet in plain text begins with the source, if there is one, and with what the columns are called in the language. -/
theorem C74_headers (h : parseIn l .text source input = .error (.parseError t)) :
    ∃ rest, t.snippet = (match source with | some src => chars!"-- " ++ src ++ chars!" --\n\n" | none => []) ++ headLine l ++ rest := by
  unfold parseIn at h
  cases hp : parse (l.options .text source) input with
  | ok c => rw [hp] at h; cases h
  | error x =>
    rw [hp] at h
    cases x with
    | py e => cases h
    | validationError e =>
      simp only [Except.mapError, Raised.thrown] at h
      cases hs : e.told l <;> rw [hs] at h <;> cases h
    | parseError e =>
      obtain ⟨rows, _, _, _, h1, _⟩ := C38_emphasis hp
      have h1 := h1 rfl
      have ht : t.snippet = e.snippet := by
        simp only [Except.mapError, Raised.thrown, ErrObj.told] at h
        cases hx : l.text e.text with
        | none => rw [hx] at h; cases h
        | some tx => rw [hx] at h; cases h; rfl
      rw [ht, h1]
      refine ⟨joinLines (rows.map (SnipRow.plain (numberWidth (l.options .text source)))), ?_⟩
      unfold plainSnippet
      cases l <;> cases source <;> simp only [Locale.options, Locale.gutterHeader, Locale.contentHeader, Locale.en.gutterHeader, Locale.en.contentHeader,
        Locale.de.gutterHeader, Locale.de.contentHeader, Locale.es.gutterHeader, Locale.es.contentHeader, headLine] <;> simp [rjust]

example : (match parseIn .de .text (some (chars!"f.eno")) (chars!"- a") with
    | .error (.parseError t) => some t.snippet
    | _ => none) = some (chars!"-- f.eno --\n\n  Zeile | Inhalt\n >    1 | - a") := by decide +kernel

/-- An error of `parse` says, in any language, one of the messages that explain why the input is rejected; text and snippet make up the whole message, and the cursor is
where the selection begins. -/
theorem C74_parse (h : parseIn l r source input = .error (.parseError t)) : ∃ m ind ques, l.text m = some t.text ∧ Worded m ∧ Explains input m t.selection ind ques ∧
    t.message = t.text ++ ['\n', '\n'] ++ t.snippet ∧ t.cursor = t.selection.start := by
  unfold parseIn at h
  cases hp : parse (l.options r source) input with
  | ok c => rw [hp] at h; cases h
  | error x =>
    rw [hp] at h
    cases x with
    | py e => cases h
    | validationError e =>
      simp only [Except.mapError, Raised.thrown] at h
      cases hs : e.told l <;> rw [hs] at h <;> cases h
    | parseError e =>
      obtain ⟨ind, ques, E, _⟩ := C66_parse_error hp
      obtain ⟨tx, ht⟩ := (C74_exists l e.text).2 fun k => ⟨(explains_worded E).2 _ _, (explains_worded E).2 _ _⟩
      simp only [Except.mapError, Raised.thrown, ErrObj.told, ht, Option.map_some, Option.elim_some, Except.error.injEq, Thrown.parseError.injEq] at h
      subst h
      exact ⟨e.text, ind, ques, ht, (explains_worded E).1, E, rfl, rfl⟩

/-- The language does not matter for what is accepted, and what is rejected is rejected with the translation of the same message and the same selection. -/
theorem C74_translated : (∀ c, parseIn l r source input = .ok c → parseIn l' r' source' input = .ok c) ∧
    (parseIn l r source input = .error (.parseError t) → r' ≠ .terminal → ∃ t', parseIn l' r' source' input = .error (.parseError t')) ∧
    (parseIn l r source input = .error (.parseError t) → parseIn l' r' source' input = .error (.parseError t') → t.selection = t'.selection ∧
      ∀ m, Worded m → (l.text m = some t.text ↔ l'.text m = some t'.text)) := by
  have raised : ∀ {l r source t}, parseIn l r source input = .error (.parseError t) ↔ ∃ e, parse (l.options r source) input = .error (.parseError e) ∧ e.told l = some t := by
    intro l r source t
    unfold parseIn
    constructor
    · intro h
      cases hp : parse (l.options r source) input with
      | ok c => rw [hp] at h; cases h
      | error x =>
        rw [hp] at h
        cases x with
        | py e => cases h
        | validationError e =>
          simp only [Except.mapError, Raised.thrown] at h
          cases hs : e.told l <;> rw [hs] at h <;> cases h
        | parseError e =>
          simp only [Except.mapError, Raised.thrown] at h
          cases hs : e.told l with
          | none => rw [hs] at h; cases h
          | some t' => rw [hs] at h; injection h with h; injection h with h; subst h; exact ⟨e, rfl, hs⟩
    · rintro ⟨e, hp, hs⟩
      rw [hp]
      simp [Except.mapError, Raised.thrown, hs]
  refine ⟨?_, ?_, ?_⟩
  · intro c h
    unfold parseIn at h ⊢
    cases hp : parse (l.options r source) input with
    | ok c' =>
      rw [hp] at h
      injection h with h
      subst h
      rw [C72_parse.1 c' hp]; rfl
    | error x => rw [hp] at h; cases h
  · intro h hr
    obtain ⟨e, he, _⟩ := raised.1 h
    obtain ⟨e', he', h1, h2⟩ := (C72_parse (o' := l'.options r' source')).2.1 e hr he
    obtain ⟨ind, ques, E, _⟩ := C66_parse_error he'
    obtain ⟨tx, ht⟩ := (C74_exists l' e'.text).2 fun k => ⟨(explains_worded E).2 _ _, (explains_worded E).2 _ _⟩
    exact ⟨_, raised.2 ⟨e', he', by simp [ErrObj.told, ht]; rfl⟩⟩
  · intro h h'
    obtain ⟨e, he, hs⟩ := raised.1 h
    obtain ⟨e', he', hs'⟩ := raised.1 h'
    obtain ⟨h1, h2⟩ := C72_parse.2.2 e e' he he'
    obtain ⟨ind, ques, E, _⟩ := C66_parse_error he
    obtain ⟨x, hx, rfl⟩ := Option.map_eq_some_iff.1 hs
    obtain ⟨x', hx', rfl⟩ := Option.map_eq_some_iff.1 hs'
    rw [h1] at hx'
    refine ⟨h2.symm, fun m hm => ⟨fun a => ?_, fun a => ?_⟩⟩
    · rw [C74_unambiguous hm (explains_worded E).1 a hx]; exact hx'
    · rw [C74_unambiguous hm (explains_worded E).1 a hx']; exact hx

example : ∃ t, parseIn .de .html (some (chars!"file")) (chars!"-- x\n1") = .error (.parseError t) := ⟨_, rfl⟩

end Eno
