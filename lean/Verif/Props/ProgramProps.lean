import Verif.Proofs.ProgramAgree
import Verif.Proofs.SelectionPlaces
import Verif.Props.MessageProps
import Verif.Props.TerminalProps

/-!
# Whole programs and the errors that they get

C75: a program that uses the API does the same with all languages and with the text and HTML reporters. Each validation error that it gets is about something that is written
in the document, its message can be told in all languages, and its selection lies on lines of the document.
-/

namespace Eno.El

open Spec

variable {input : Str} {E : Env} {o' : Options} {w0 : World}

theorem setting_options (hl : load input = .ok E.ctx) (h : o' = E.o ∨ (E.o.reporter ≠ .terminal ∧ o'.reporter ≠ .terminal)) : Setting True E { E with o := o' } := by
  refine ⟨envOk_load hl, rfl, rfl, fun _ => rfl, fun v _ _ => ?_⟩
  have A : Alike2 (v.raise E.o E.ctx) (v.raise o' E.ctx) := by
    rcases h with rfl | ⟨h1, h2⟩
    · exact alike2_refl _
    · exact alike2_complaint ⟨(loaded_all hl).1, h1, h2⟩ v
  unfold Alike2 at A
  split at A
  · rename_i e e' h1 h2
    exact .inl ⟨e, e', h1, h2⟩
  · rename_i a b h1 h2
    subst A
    exact .inr ⟨a, h1, h2⟩
  · exact A.elim

theorem sameCause_blank {e e' : ErrObj} (h : SameCause E { E with o := o' } e e') : e'.blank = e.blank := by
  obtain ⟨v, _, h2, h3⟩ := h
  have U := (C72_validation v h2).2 e' h3
  simp only [ErrObj.blank, U.1, U.2]

/-- Programs: with another reporter, another source and another language, the same objects are created and touched in the same way, and the program gets the same results and the
same errors, with the same messages and selections. Only the snippets differ. The reporter for the terminal is left out, since it fails. The program starts with the document or
with the element that `lookup` returned. -/
theorem C75_uniform (hl : load input = .ok E.ctx) (h0 : Begun E w0) (h1 : E.o.reporter ≠ .terminal) (h2 : o'.reporter ≠ .terminal) (p : Program) :
    (p.exec { E with o := o' } [] w0).2 = (p.exec E [] w0).2 ∧ blankResult (p.outcome { E with o := o' } w0) = blankResult (p.outcome E w0) := by
  have T := setting_options hl (.inr ⟨h1, h2⟩)
  have A := (exec_agree (look := ErrObj.blank) T (fun _ _ => sameCause_blank) p (.inl trivial) [] [] .nil _ (h0.inv T.env)).2
  exact ⟨A.world, (resAgree_seen (fun _ _ => sameCause_blank) A.res).1⟩

theorem both_diagonal {R : ErrObj → ErrObj → Prop} {l l' : List ErrObj} (h : Both R l l') : ∀ e ∈ l, ∃ e', R e e' := by
  induction h with
  | nil => simp
  | cons h _ ih =>
    intro e he
    rcases List.mem_cons.1 he with rfl | he
    · exact ⟨_, h⟩
    · exact ih e he

/-- Each validation error that a program gets is a complaint about something that is written in the document. -/
theorem C75_said (hl : load input = .ok E.ctx) (h0 : Begun E w0) (p : Program) : ∀ e ∈ errorsOf (p.outcome E w0), ∃ v : Complaint, v.Proper E.ctx.heap ∧ v.raise E.o E.ctx = .ok e := by
  have T := setting_options hl (.inl rfl)
  intro e he
  have k : ∀ e e', SameCause E { E with o := E.o } e e' → e'.blank = e.blank := fun _ _ => sameCause_blank
  obtain ⟨e', v, h1, h2, _⟩ := both_diagonal (resAgree_seen k (exec_agree (look := ErrObj.blank) T k p (.inl trivial) [] [] .nil _ (h0.inv T.env)).2.res).2 e he
  exact ⟨v, h1, h2⟩

theorem proper_text {o : Options} {ctx : Ctx} {v : Complaint} {e : ErrObj} (hv : v.Proper ctx.heap) (h : v.raise o ctx = .ok e) (k : Str) :
    e.text ≠ .named .expectedFieldsetEntry (some k) ∧ e.text ≠ .named .expectedListItem (some k) := by
  have about : ∀ {t r}, aboutElement o ctx t r = .ok e → e.text = t := by
    intro t r h
    unfold aboutElement at h
    simp only [bind, Except.bind] at h
    repeat' split at h
    all_goals first | (cases h; done) | (injection h with h; subst h; rfl)
  cases v with
  | comment m r =>
    simp only [Complaint.raise, commentError, bind, Except.bind] at h
    repeat' split at h
    all_goals first | (cases h; done) | (injection h with h; subst h; simp)
  | element m r => rw [about h]; simp
  | key m r =>
    simp only [Complaint.raise, keyError, bind, Except.bind] at h
    repeat' split at h
    all_goals first | (cases h; done) | (injection h with h; subst h; simp)
  | value m r =>
    simp only [Complaint.raise, valueError, bind, Except.bind] at h
    repeat' split at h
    all_goals first | (cases h; done) | (injection h with h; subst h; simp)
  | missingComment r =>
    simp only [Complaint.raise, missingComment, bind, Except.bind] at h
    repeat' split at h
    all_goals first | (cases h; done) | (injection h with h; subst h; simp)
  | missingValue r =>
    cases r <;> simp only [Complaint.raise, missingValue, bind, Except.bind] at h <;> repeat' split at h
    all_goals first
      | (cases h; done)
      | (injection h with h
         subst h
         rename_i hq _ _ _ _ _ _
         repeat' split at hq
         all_goals first | (cases hq; done) | (injection hq with hq; subst hq; simp))
  | missingElement key q n =>
    simp only [Complaint.raise, missingElement, bind, Except.bind] at h
    repeat' split at h
    all_goals first | (cases h; done) | (injection h with h; subst h; simp; exact ⟨fun a => absurd a hv.2.1, fun a => absurd a hv.2.2⟩)
  | unexpected m r => rw [about h]; split <;> simp
  | several key rs n =>
    simp only [Complaint.raise, unexpectedMultipleElements, bind, Except.bind] at h
    repeat' split at h
    all_goals first | (cases h; done) | (injection h with h; subst h; simp; exact ⟨fun a => absurd a hv.2.2.1, fun a => absurd a hv.2.2.2⟩)
  | wrongType key r n => rw [about h]; simp; exact ⟨fun a => absurd a hv.2.1, fun a => absurd a hv.2.2⟩

/-- The message of each validation error that a program gets can be told in all languages. -/
theorem C75_text (hl : load input = .ok E.ctx) (h0 : Begun E w0) (p : Program) : ∀ e ∈ errorsOf (p.outcome E w0), ∀ l : Locale, ∃ s, l.text e.text = some s := by
  intro e he l
  obtain ⟨v, h1, h2⟩ := C75_said hl h0 p e he
  exact (C74_exists l e.text).2 fun k => proper_text h1 h2 k

/-- The selection of each validation error that a program gets is a part of the document: it goes from a position on a line to one on the same or a later line. The line
numbers are right in a document in which no line is connected with another one. -/
theorem C75_selection (hl : load input = .ok E.ctx) (h0 : Begun E w0) (p : Program) : ∀ e ∈ errorsOf (p.outcome E w0), SelectionIn input e.selection := by
  intro e he
  obtain ⟨v, h1, h2⟩ := C75_said hl h0 p e he
  exact proper_selection hl h1 h2

/-- Reads the value of `b` with a loader that accepts nothing, and raises the error that it gets. -/
def rejectB : Program :=
  .call 0 (.one (.kind .field) (some (chars!"b")) (some true)) fun
    | .ok (.obj o) => .call o (.value true fun s => if s = chars!"1" then .ret (.nat 1) else .reject (chars!"No number.")) fun
      | .error (.validation _) => .again 0
      | r => match r with | .ok v => .ret v | .error _ => .ret .none
    | _ => .ret .none

example : ∃ ctx, load (chars!"a: 1\nb: x") = .ok ctx ∧
    (errorsOf (rejectB.outcome ⟨{}, ctx, 9⟩ World.start)).map (fun e => (e.text, e.selection)) = [(.valueError (chars!"No number."), ⟨⟨3, 8, 1⟩, ⟨4, 9, 1⟩⟩)] ∧
    (errorsOf (rejectB.outcome ⟨{ reporter := .html }, ctx, 9⟩ World.start)).map (fun e => (e.text, e.selection)) = [(.valueError (chars!"No number."), ⟨⟨3, 8, 1⟩, ⟨4, 9, 1⟩⟩)] ∧
    (errorsOf (rejectB.outcome ⟨{}, ctx, 9⟩ World.start)).map (·.snippet) ≠ (errorsOf (rejectB.outcome ⟨{ reporter := .html }, ctx, 9⟩ World.start)).map (·.snippet) := by
  refine ⟨_, rfl, ?_⟩; decide +kernel

end Eno.El
