import Verif.Props.SpokenProps
import Verif.Props.UncommentedProps

/-!
# C86: comments do not matter to programs that do not read them

A program that never calls `raw` or a method about comments, and looks at the messages of errors, but not at snippets and selections, does the same with two texts whose lines say
the same apart from comments.
-/

namespace Eno.El

open Spec

variable {i i' : Str} {es es' : List Said} {r : Stop} {o o' : Options} {ctx ctx' : Ctx} {w0 : World}

theorem setting_aside (hl : load i = .ok ctx) (hl' : load i' = .ok ctx') (H : SameAsideHeap i i' ctx.heap ctx'.heap) (ho : o.reporter ≠ .terminal) (ho' : o'.reporter ≠ .terminal) (n : Nat) :
    Setting False ⟨o, ctx, n⟩ ⟨o', ctx', n⟩ := by
  obtain ⟨_, i1, _⟩ := loaded_all hl
  obtain ⟨_, i2, _⟩ := loaded_all hl'
  refine ⟨envOk_load hl, rfl, ?_, False.elim, fun v ha hv => aside_cause hl hl' H ho ho' (ha.resolve_left id) hv⟩
  simp only [i1, i2]
  exact H

theorem sameCause_aside (hl : load i = .ok ctx) (hl' : load i' = .ok ctx') (H : SameAsideHeap i i' ctx.heap ctx'.heap) (ho : o.reporter ≠ .terminal) (ho' : o'.reporter ≠ .terminal) {n : Nat}
    {e e' : ErrObj} (h : SameCause ⟨o, ctx, n⟩ ⟨o', ctx', n⟩ e e') : e'.spoken = e.spoken := by
  obtain ⟨v, hv, h2, h3⟩ := h
  simp only [ErrObj.spoken, aside_texts hl hl' H ho ho' (proper_likely hv) h2 h3]

/-- Programs: if the lines of two texts say the same, apart from blank lines and comments, and one is loaded, then so is the other, and each program that does not read comments
gets the same with both: the same objects are created, touched and cached, and the results and the errors are the same, with the same messages. Only selections and snippets
differ, which the program does not look at. The reporter for the terminal is left out, since it fails. -/
theorem C86_programs (S : Says i es r) (S' : Says i' es' r) (ht : wordless es = wordless es') (ho : o.reporter ≠ .terminal) (ho' : o'.reporter ≠ .terminal) (hl : load i = .ok ctx) :
    ∃ ctx', load i' = .ok ctx' ∧ ∀ (n : Nat) (w0 : World), Begun ⟨o, ctx, n⟩ w0 → ∀ p : Program, p.Aside →
      (p.execSeen ErrObj.spoken ⟨o', ctx', n⟩ [] w0).2 = (p.execSeen ErrObj.spoken ⟨o, ctx, n⟩ [] w0).2 ∧
      spokenResult (p.spokenOutcome ⟨o', ctx', n⟩ w0) = spokenResult (p.spokenOutcome ⟨o, ctx, n⟩ w0) := by
  have L := hushed_load S S' ht
  rw [hl] at L
  cases hl' : load i' with
  | error x => rw [hl'] at L; cases L
  | ok ctx' =>
    rw [hl'] at L
    simp only [hushLoad] at L
    cases L with
    | ok C =>
      have H : SameAsideHeap i i' ctx.heap ctx'.heap := C.heap
      refine ⟨ctx', rfl, fun n w0 h0 p hp => ?_⟩
      have T := setting_aside hl hl' H ho ho' n
      have k : ∀ e e', SameCause ⟨o, ctx, n⟩ ⟨o', ctx', n⟩ e e' → e'.spoken = e.spoken := fun _ _ => sameCause_aside hl hl' H ho ho'
      have A := (exec_agree (look := ErrObj.spoken) T k p (.inr hp) [] [] .nil _ (h0.inv T.env)).2
      exact ⟨A.world, (resAgree_seen k A.res).1⟩

/-- For example, a comment can be inserted in front of any line, of which the lines before it say `es`. -/
theorem C86_insert_programs {a b w t : Str} (hw : Blank w) (ht : '\n' ∉ t) (R : Reads b (a ++ '\n' :: b) es) (hb : b.dropWhile isSp ≠ []) (ho : o.reporter ≠ .terminal)
    (ho' : o'.reporter ≠ .terminal) (hl : load (a ++ '\n' :: b) = .ok ctx) :
    ∃ ctx', load (a ++ '\n' :: (w ++ '>' :: (t ++ '\n' :: b))) = .ok ctx' ∧ ∀ (n : Nat) (p : Program), p.Aside →
      spokenResult (p.spokenOutcome ⟨o', ctx', n⟩ World.start) = spokenResult (p.spokenOutcome ⟨o, ctx, n⟩ World.start) := by
  obtain ⟨es', r, S⟩ := says_exists b
  obtain ⟨x, S'⟩ := C86_comment_line hw ht S
  have hd : (w ++ '>' :: (t ++ '\n' :: b)).dropWhile isSp = '>' :: (t ++ '\n' :: b) := by
    rw [List.dropWhile_append_of_pos fun c hc => by have := hw c hc; simp [isHs] at this; exact this.1]
    rfl
  obtain ⟨ctx', h1, h2⟩ := C86_programs (R.says S) ((R.interject hd hb a rfl).says S') (wordless_append (by rfl) es) ho ho' hl
  exact ⟨ctx', h1, fun n p hp => (h2 n _ .parsed p hp).2⟩

/-! ## Examples -/

/-- Returns how many items the list `a` has. -/
def countA : Program :=
  .call 0 (.one (.kind .list) (some (chars!"a")) (some true)) fun
    | .ok (.obj x) => .call x .length fun
      | .ok v => if v.errors = [] then .ret v else .ret .none
      | _ => .ret .none
    | _ => .ret .none

theorem countA_aside : countA.Aside := by
  refine ⟨trivial, fun r => ?_⟩
  dsimp only
  split
  · refine ⟨trivial, fun r => ?_⟩
    dsimp only
    split
    · split <;> trivial
    · trivial
  · trivial

/-- The same document, with and without comments: `countA`, like every program that does not read comments, gets the same. -/
example : ∃ ctx ctx', load (chars!"a:\n- 1\nb < a") = .ok ctx ∧ load (chars!"> x\na:\n  > y\n- 1\n>\n\nb < a") = .ok ctx' ∧
    (∀ n (p : Program), p.Aside → spokenResult (p.spokenOutcome ⟨{}, ctx', n⟩ World.start) = spokenResult (p.spokenOutcome ⟨{}, ctx, n⟩ World.start)) ∧
    spokenResult (countA.spokenOutcome ⟨{}, ctx', 9⟩ World.start) = spokenResult (countA.spokenOutcome ⟨{}, ctx, 9⟩ World.start) := by
  obtain ⟨ctx, h⟩ : ∃ ctx, load (chars!"a:\n- 1\nb < a") = .ok ctx := ⟨_, rfl⟩
  obtain ⟨ctx', h1, h2⟩ := C86_programs (o := {}) (o' := {}) commented_plain commented_full (by decide) (by decide) (by decide) h
  exact ⟨ctx, ctx', h, h1, fun n p hp => (h2 n _ .parsed p hp).2, (h2 9 _ .parsed _ countA_aside).2⟩

/-- The number that a program returned. -/
def numberIn : Except Exc Val → Option Nat
  | .ok (.nat n) => some n
  | _ => none

/-- The text that a program returned. -/
def textIn : Except Exc Val → Option Str
  | .ok (.text s) => some s
  | _ => none

/-- It gets the number of items. -/
example : ∃ ctx', load (chars!"> x\na:\n  > y\n- 1\n>\n\nb < a") = .ok ctx' ∧ numberIn (countA.spokenOutcome ⟨{}, ctx', 9⟩ World.start) = some 1 := by
  refine ⟨_, rfl, ?_⟩; decide +kernel

/-- Returns the comment of the list `a`. -/
def commentA : Program :=
  .call 0 (.one (.kind .list) (some (chars!"a")) (some true)) fun
    | .ok (.obj x) => .call x (.comment true fun s => .ret (.text s)) fun
      | .ok v => .ret v
      | _ => .ret .none
    | _ => .ret .none

/-- Programs that read comments do not get the same. -/
theorem C86_programs_need_aside : ∃ ctx ctx', load (chars!"a:\n- 1\nb < a") = .ok ctx ∧ load (chars!"> x\na:\n  > y\n- 1\n>\n\nb < a") = .ok ctx' ∧ ¬ commentA.Aside ∧
    textIn (commentA.spokenOutcome ⟨{}, ctx, 9⟩ World.start) = none ∧ textIn (commentA.spokenOutcome ⟨{}, ctx', 9⟩ World.start) = some (chars!"x") := by
  refine ⟨_, _, rfl, rfl, ?_, ?_⟩
  · intro h
    have := h.2 (.ok (.obj 0))
    exact this.1
  · decide +kernel

end Eno.El
