import Verif.Proofs.HushComplaint
import Verif.Proofs.ProgramAgree
import Verif.Props.LayoutProps
import Verif.Props.ProgramProps

/-!
# C80: programs and the layout of the document

A program that looks at the messages of errors, but not at snippets and selections, does the same with two texts whose lines say the same: it gets the same values and the same
messages.
-/

namespace Eno.El

open Spec

variable {i i' : Str} {es es' : List Said} {r : Stop} {o o' : Options} {ctx ctx' : Ctx} {w0 : World}

theorem setting_layout (hl : load i = .ok ctx) (hl' : load i' = .ok ctx') (H : SameHeap i i' ctx.heap ctx'.heap) (ho : o.reporter ≠ .terminal) (ho' : o'.reporter ≠ .terminal) (n : Nat) :
    Setting True ⟨o, ctx, n⟩ ⟨o', ctx', n⟩ := by
  obtain ⟨_, i1, _⟩ := loaded_all hl
  obtain ⟨_, i2, _⟩ := loaded_all hl'
  refine ⟨envOk_load hl, rfl, ?_, fun _ => ?_, fun v _ hv => ?_⟩
  · simp only [i1, i2]
    exact same_hush H
  · simp only [i1, i2]
    exact H
  · rcases layout_cause hl hl' H ho ho' hv with ⟨e, e', h1, h2, _⟩ | h
    · exact .inl ⟨e, e', h1, h2⟩
    · exact .inr h

theorem proper_likely {h : Heap} {v : Complaint} (hv : v.Proper h) : Likely h v := by
  cases v with
  | comment m r => exact .inr hv
  | element m r => exact .inr hv
  | key m r => exact .inr hv
  | missingComment r => exact .inr hv
  | unexpected m r => exact .inr hv
  | wrongType k r n => exact ⟨.inr hv.1, hv.2⟩
  | value m r => exact hv
  | missingValue r => exact hv
  | missingElement k p n => exact hv
  | several k rs n => exact hv

theorem sameCause_spoken (hl : load i = .ok ctx) (hl' : load i' = .ok ctx') (H : SameHeap i i' ctx.heap ctx'.heap) (ho : o.reporter ≠ .terminal) (ho' : o'.reporter ≠ .terminal) {n : Nat}
    {e e' : ErrObj} (h : SameCause ⟨o, ctx, n⟩ ⟨o', ctx', n⟩ e e') : e'.spoken = e.spoken := by
  obtain ⟨v, hv, h2, h3⟩ := h
  rcases layout_cause hl hl' H ho ho' (proper_likely hv) with ⟨a, b, q1, q2, q3⟩ | ⟨x, q, _⟩
  · simp only at h2 h3
    rw [h2] at q1; rw [h3] at q2
    cases q1; cases q2
    simp only [ErrObj.spoken, q3]
  · simp only at h2
    rw [h2] at q; cases q

/-- Programs: if the lines of two texts say the same, apart from blank lines and comments that belong to no element, and one is loaded, then so is the other, and each program
gets the same with both: the same objects are created, touched and cached, and the results and the errors are the same, with the same messages. Only selections and snippets
differ, which the program does not look at. Reporter, source and language do not matter, except that the reporter for the terminal is left out, since it fails. -/
theorem C80_programs (S : Says i es r) (S' : Says i' es' r) (ht : Spec.told es = Spec.told es') (ho : o.reporter ≠ .terminal) (ho' : o'.reporter ≠ .terminal) (hl : load i = .ok ctx) :
    ∃ ctx', load i' = .ok ctx' ∧ ∀ (n : Nat) (w0 : World), Begun ⟨o, ctx, n⟩ w0 → ∀ p : Program,
      (p.execSeen ErrObj.spoken ⟨o', ctx', n⟩ [] w0).2 = (p.execSeen ErrObj.spoken ⟨o, ctx, n⟩ [] w0).2 ∧
      spokenResult (p.spokenOutcome ⟨o', ctx', n⟩ w0) = spokenResult (p.spokenOutcome ⟨o, ctx, n⟩ w0) := by
  have L := same_load S S' ht
  rw [hl] at L
  cases hl' : load i' with
  | error x => rw [hl'] at L; cases L
  | ok ctx' =>
    rw [hl'] at L
    cases L with
    | ok C =>
      refine ⟨ctx', rfl, fun n w0 h0 p => ?_⟩
      have T := setting_layout hl hl' C.heap ho ho' n
      have k : ∀ e e', SameCause ⟨o, ctx, n⟩ ⟨o', ctx', n⟩ e e' → e'.spoken = e.spoken := fun _ _ => sameCause_spoken hl hl' C.heap ho ho'
      have A := (exec_agree (look := ErrObj.spoken) T k p (.inl trivial) [] [] .nil _ (h0.inv T.env)).2
      exact ⟨A.world, (resAgree_seen k A.res).1⟩

/-- For example, blank lines and indentation can be inserted in front of any line that is neither a comment nor behind a comment. -/
theorem C80_white {a b w : Str} (hw : WhiteLine w) (R : Reads b (a ++ '\n' :: b) es) (hc : ∀ x, es.getLast? ≠ some (.comment x)) (hb : ∀ t rest, readLine b ≠ some (.comment t, rest))
    (ho : o.reporter ≠ .terminal) (ho' : o'.reporter ≠ .terminal) (hl : load (a ++ '\n' :: b) = .ok ctx) :
    ∃ ctx', load (a ++ '\n' :: (w ++ b)) = .ok ctx' ∧ ∀ (n : Nat) (p : Program),
      spokenResult (p.spokenOutcome ⟨o', ctx', n⟩ World.start) = spokenResult (p.spokenOutcome ⟨o, ctx, n⟩ World.start) := by
  obtain ⟨es', r, S⟩ := says_exists b
  obtain ⟨n, S'⟩ := C79_white_says hw hb S
  have R' := R.gap (b' := w ++ b) (List.dropWhile_append_of_pos hw) a rfl
  obtain ⟨ctx', h1, h2⟩ := C80_programs (R.says S) (R'.says S') (told_append (told_blanks n es').symm hc) ho ho' hl
  exact ⟨ctx', h1, fun n p => (h2 n _ .parsed p).2⟩

/-- Reads the value of `a` with a loader that accepts nothing, and returns the error that it gets. -/
def rejectA : Program :=
  .call 0 (.one (.kind .field) (some (chars!"a")) (some true)) fun
    | .ok (.obj x) => .call x (.value true fun _ => .reject (chars!"No.")) fun
      | .error (.validation e) => if e.text = .valueError (chars!"No.") then .give 0 else .ret .none
      | _ => .ret .none
    | _ => .ret .none

/-- The same document, written in two ways: every program gets the same. -/
example : ∃ ctx ctx', load (chars!"a: 1\nb:\n- x") = .ok ctx ∧ load (chars!"\n  ``a``:1  \n> loose\n\n b :\n\n   -   x") = .ok ctx' ∧
    ∀ n (p : Program), spokenResult (p.spokenOutcome ⟨{}, ctx', n⟩ World.start) = spokenResult (p.spokenOutcome ⟨{}, ctx, n⟩ World.start) := by
  obtain ⟨ctx, h⟩ : ∃ ctx, load (chars!"a: 1\nb:\n- x") = .ok ctx := ⟨_, rfl⟩
  obtain ⟨ctx', h1, h2⟩ := C80_programs (o := {}) (o' := {}) layout_plain layout_loose (by decide) (by decide) (by decide) h
  exact ⟨ctx, ctx', h, h1, fun n p => (h2 n _ .parsed p).2⟩

/-- Programs that return selections do not get the same. -/
example : ∃ ctx ctx', load (chars!"a: 1\nb:\n- x") = .ok ctx ∧ load (chars!"\n  ``a``:1  \n> loose\n\n b :\n\n   -   x") = .ok ctx' ∧
    (errorsOf (rejectA.spokenOutcome ⟨{}, ctx, 9⟩ World.start)).map (fun e => (e.text, e.selection)) = [(.valueError (chars!"No."), ⟨⟨3, 3, 0⟩, ⟨4, 4, 0⟩⟩)] ∧
    (errorsOf (rejectA.spokenOutcome ⟨{}, ctx', 9⟩ World.start)).map (fun e => (e.text, e.selection)) = [(.valueError (chars!"No."), ⟨⟨8, 9, 1⟩, ⟨9, 10, 1⟩⟩)] := by
  refine ⟨_, _, rfl, rfl, ?_⟩; decide +kernel

end Eno.El
