import Verif.Props.ElementMoreProps
import Verif.Props.FoundProps

/-!
# More about C22, C45 and C62: exactly what happens with a comment that consists of one empty line
-/

namespace Eno

open Spec

variable {input : Str} {h : Heap} {r : Ref}

/-- A comment that consists of one empty line. -/
def BlankComment (c : Option (List Comment)) : Prop := ∃ x, c = some [x] ∧ x.comment = none

/-- The only comments that C22 leaves out. -/
theorem C22_left_out (c : Option (List Comment)) : ¬ Readable c ↔ BlankComment c := by
  constructor
  · intro hn
    match c with
    | none => exact absurd (fun x e => by cases e) hn
    | some [] => exact absurd (fun x e => by cases e) hn
    | some (_ :: _ :: _) => exact absurd (fun x e => by cases e) hn
    | some [x] =>
      refine ⟨x, rfl, ?_⟩
      cases hx : x.comment with
      | none => rfl
      | some s => exact absurd (fun y e => by cases e; rw [hx]; rfl) hn
  · rintro ⟨x, rfl, hx⟩ hr
    have := hr x rfl
    rw [hx] at this
    cases this

theorem compute_blank {c : Option (List Comment)} (hb : BlankComment c) : computeComment c = .error .keyError := by
  obtain ⟨x, rfl, hx⟩ := hb
  simp [computeComment, hx]

theorem read_blank {c : Cache} (hc : Honest input h c) (hb : BlankComment (h.comments r)) : readComment h r c = (.error .keyError, c) := by
  have e := compute_blank hb
  unfold readComment
  cases hv : c.comment r with
  | some v => rw [hc.comment r v hv] at e; cases e
  | none => dsimp only; rw [e]

/-- With these, reading a comment always raises KeyError; so it does if and only if the comment consists of one empty line. -/
theorem C22_raises (ha : analyze input = .ok ctx) (hl : load input = .ok ctx') (r : Ref) (fuel : Nat) :
    answer input ctx'.heap fuel (.comment r) = .error .keyError ↔ BlankComment (ctx'.heap.comments r) := by
  constructor
  · intro e
    refine (C22_left_out _).1 fun hr => ?_
    rw [C22_comment_partial ha hl r hr] at e
    cases e
  · intro hb
    have := read_blank (r := r) (honest_empty (input := input)) hb
    unfold answer Query.run
    dsimp only
    unfold Read.map
    rw [this]

example : ∃ ctx, load (chars!">\na: 1") = .ok ctx ∧ (ctx.heap.comments (.elem 1)).map (·.map (·.comment)) = some [none] := by
  refine ⟨_, rfl, ?_⟩; decide +kernel

namespace El

variable {w : World} {o : Nat} {E : Env}

/-- Reading such a comment through an element raises KeyError, required or not, each time; the element is touched, the loader is not called. -/
theorem C45_blank (hl : load input = .ok E.ctx) (hw : Reach E w) (hb : BlankComment (E.ctx.heap.comments (w.at o).ref)) (required : Bool) (loader : Loader) :
    run E o (.comment required loader) w = (.error (.py .keyError), { w with objs := markTouched w o }) := by
  have I := hw.inv (envOk_load hl)
  have hr : ((setTouched o w).2.at o).ref = (w.at o).ref := by rw [at_touched]; split <;> rfl
  have e := read_blank (r := (w.at o).ref) I.cache hb
  have h1 : comment E o required loader w = (.error (.py .keyError), { w with objs := markTouched w o }) := by
    unfold comment
    rw [bind_ok (m := setTouched o) (a := ()) (w' := (setTouched o w).2) rfl]
    apply bind_error
    unfold El.commentOf
    rw [bind_ok obj_run, hr]
    unfold reading
    rw [show (setTouched o w).2.cache = w.cache from rfl, e]
    rfl
  unfold run
  rw [bind_ok obj_run]
  show (Val.opt <$> comment E o required loader) w = _
  rw [map_run, h1]

/-- `comment_error` with a function: KeyError as well, without calling the function; with a text it works as ever. -/
theorem C62_blank (hl : load input = .ok E.ctx) (hw : Reach E w) (hb : BlankComment (E.ctx.heap.comments (w.at o).ref)) :
    (∀ f, run E o (.commentError (.fn f)) w = (.error (.py .keyError), w)) ∧
      ∀ s, run E o (.commentError (.text s)) w = (returned (commentError E.o E.ctx s (w.at o).ref), w) := by
  have I := hw.inv (envOk_load hl)
  have e := read_blank (r := (w.at o).ref) I.cache hb
  have hc : El.commentOf E o w = (.error (.py .keyError), w) := by
    unfold El.commentOf
    rw [bind_ok obj_run]
    unfold reading
    rw [e]
  refine ⟨fun f => ?_, fun s => ?_⟩
  · unfold run
    rw [bind_ok obj_run]
    show (Val.error <$> commentErrorOf E o (.fn f)) w = _
    rw [map_run]
    have : commentErrorOf E o (.fn f) w = (.error (.py .keyError), w) := by
      unfold commentErrorOf
      apply bind_error
      unfold MsgArg.get
      exact bind_error hc
    rw [this]
  · unfold run
    rw [bind_ok obj_run]
    show (Val.error <$> commentErrorOf E o (.text s)) w = _
    rw [map_run]
    have : commentErrorOf E o (.text s) w = makeError (commentError E.o E.ctx s (w.at o).ref) w := rfl
    rw [this]
    cases commentError E.o E.ctx s (w.at o).ref <;> rfl

/-- The field of such a document, as `lookup` returns it. -/
example : ∃ (E : Env) (w : World), load (chars!">\na: 1") = .ok E.ctx ∧ Reach E w ∧ BlankComment (E.ctx.heap.comments (w.at 0).ref) := by
  obtain ⟨c, h1, h2, h3⟩ : ∃ c, load (chars!">\na: 1") = .ok c ∧ 1 < c.heap.length ∧ (c.heap.comments (.elem 1)).map (·.map (·.comment)) = some [none] := by
    refine ⟨_, rfl, ?_, ?_⟩ <;> decide +kernel
  obtain ⟨x, _, e, R, _⟩ := C78_found (E := ⟨{}, c, 99⟩) h1 (.elem (by omega) h2) 0
  rw [e] at R
  refine ⟨⟨{}, c, 99⟩, World.found (.elem 1), h1, R, ?_⟩
  show BlankComment (c.heap.comments (.elem 1))
  cases hc : c.heap.comments (.elem 1) with
  | none => rw [hc] at h3; cases h3
  | some cs =>
    rw [hc] at h3
    match cs, h3 with
    | [x], h3 => exact ⟨x, rfl, by simpa using h3⟩
    | _ :: _ :: _, h3 => simp at h3

end El

end Eno
