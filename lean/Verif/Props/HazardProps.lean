import Verif.Proofs.HazardCalls

/-!
# C81: which Python exceptions calls can end with
-/

namespace Eno.El

open Spec

variable {w : World} {o : Nat} {E : Env} {input : Str} {ctx0 : Ctx} {P : PyExc → Prop} {m : Method}

/-- The Python exception that a call ends with. -/
def gotPy : Except Exc Val → Option PyExc
  | .error (.py x) => some x
  | _ => none

/-- **C81**: if a call ends with a Python exception that is neither an error of the library nor a rejected value, then one of the functions that were passed raised it, or it happens for one of
the reasons in `Hazard`. No section of the document is, in the end, merged with itself (C73), and the reporter is not the one for the terminal, which fails. -/
theorem C81_call (ha : analyze input = .ok ctx0) (hl : load input = .ok E.ctx) (hd : E.ctx.heap.length + 1 ≤ E.depth) (nc : NoCircles ctx0.heap) (hr : E.o.reporter ≠ .terminal) (hw : Reach E w)
    (ho : o < w.objs.length) (hm : m.Fair (Leads E)) (ht : m.Throws (fun _ => True) P) : RaisesAt (fun x => P x ∨ Hazard E w o m x) (run E o m) w := by
  have C := calm_load ha hl hd nc hr
  refine run_raises_known C (hw.inv C.env) ho ?_ (fair_polite (fun _ _ I R => R.keeps C.env I) hm)
  cases m with
  | comment r f => exact fun a w _ => ht a w trivial
  | key f => exact fun a w _ => ht a w trivial
  | value r f => exact fun a w _ => ht a w trivial
  | values r f => exact fun a w _ => ht a w trivial
  | commentError a => cases a with | text _ => trivial | fn f => exact fun a w _ => ht a w trivial
  | error a => cases a with | text _ => trivial | fn f => exact fun a w _ => ht a w trivial
  | keyError a => cases a with | text _ => trivial | fn f => exact fun a w _ => ht a w trivial
  | valueError a => cases a with | text _ => trivial | fn f => exact fun a w _ => ht a w trivial
  | assertAllTouched a only skip =>
    rcases a with _ | _ | f
    · trivial
    · trivial
    · exact fun a w _ => ht a w trivial
  | _ => trivial

/-- Calls of missing elements. -/
theorem C81_missing {x : Missing} (ha : analyze input = .ok ctx0) (hl : load input = .ok E.ctx) (hd : E.ctx.heap.length + 1 ≤ E.depth) (nc : NoCircles ctx0.heap) (hr : E.o.reporter ≠ .terminal)
    (hw : Reach E w) (hx : IsA w x.section (.of .section)) : RaisesAt (MissingHazard E w x m) (runMissing E x m) w := by
  have C := calm_load ha hl hd nc hr
  exact runMissing_raises C (hw.inv C.env) x hx m

/-- Whatever happens, it is a `KeyError`, a `TypeError` or an `AttributeError`; only `raw` recurses too deep. -/
theorem C81_kinds {x : PyExc} (h : Hazard E w o m x) : x = .keyError ∨ x = .typeError ∨ x = .attributeError ∨ (x = .recursionError ∧ m = .raw) := by
  cases h <;> first | (simp; done) | skip
  rename_i h
  rcases h with rfl | rfl | rfl <;> simp

/-- Methods that never end with a Python exception of their own if the class has them. -/
def Reliable : Method → Bool
  | .touch => true
  | .value _ _ => true
  | .valueError _ => true
  | .values _ _ => true
  | .yields _ => true
  | .yieldsEntry => true
  | .yieldsItem => true
  | .items => true
  | .length => true
  | .entries _ => true
  | .entry _ _ => true
  | .allEntriesRequired _ => true
  | _ => false

/-- These methods never do: reading values, items and entries, and touching. -/
theorem C81_reliable (ha : analyze input = .ok ctx0) (hl : load input = .ok E.ctx) (hd : E.ctx.heap.length + 1 ≤ E.depth) (nc : NoCircles ctx0.heap) (hr : E.o.reporter ≠ .terminal)
    (hw : Reach E w) (ho : o < w.objs.length) (hm : m.Fair (Leads E)) (ht : m.Throws (fun _ => True) P) (h1 : Offers (w.at o).cls m = true) (h2 : Reliable m = true) :
    RaisesAt P (run E o m) w := by
  refine (C81_call ha hl hd nc hr hw ho hm ht).mono fun x hh => hh.resolve_right fun hz => ?_
  have no : ∀ p : Method → Bool, (∀ m, Reliable m = true → p m = false) → p m = true → False := fun p hp h => by rw [hp m h2] at h; cases h
  cases hz with
  | noMethod h => rw [h1] at h; cases h
  | document _ h => exact no AboutItself (fun m h => by cases m <;> first | rfl | (cases h; done)) h
  | blank _ h => exact no ReadsComment (fun m h => by cases m <;> first | rfl | (cases h; done)) h
  | itemKey _ h => exact no AboutKey (fun m h => by cases m <;> first | rfl | (cases h; done)) h
  | stuckIn _ _ h => exact no AboutContent (fun m h => by cases m <;> first | rfl | (cases h; done)) h
  | yieldedIn _ _ _ _ _ h => exact no (YieldsAs _) (fun m h => by cases m <;> first | rfl | (cases h; done)) h
  | _ => cases h2

/-- After `parse`, all methods that fields and entries of fieldsets have are safe, except for `raw`, if nothing in the document makes the reporter get stuck, the comment can be read, and there is one
if there is a complaint about it. -/
theorem C81_field (ha : analyze input = .ok ctx0) (hl : load input = .ok E.ctx) (hd : E.ctx.heap.length + 1 ≤ E.depth) (nc : NoCircles ctx0.heap) (hr : E.o.reporter ≠ .terminal)
    (hw : AfterParse E w) (ho : o < w.objs.length) (hc : (w.at o).cls = .of .field ∨ (w.at o).cls = .entry) (hm : m.Fair (Leads E)) (ht : m.Throws (fun _ => True) P)
    (h1 : Offers (w.at o).cls m = true) (h2 : m ≠ .raw) (hs : ∀ i, ¬ Stuck E.ctx.heap i) (hb : Readable (E.ctx.heap.comments (w.at o).ref))
    (hn : ∀ a, m = .commentError a → E.ctx.heap.comments (w.at o).ref ≠ none) : RaisesAt P (run E o m) w := by
  have I := hw.reach.inv (envOk_load hl)
  have R := (I.objs o ho).ref
  have h0 : (w.at o).ref ≠ .elem 0 := fun h => by
    rw [h] at R
    rcases hc with hc | hc <;> rw [hc] at R
    · cases R.2.1 rfl
    · exact R.elim
  have hi : ∀ i k, (w.at o).ref ≠ .item i k := fun i k h => by
    rw [h] at R
    rcases hc with hc | hc <;> rw [hc] at R <;> exact R.elim
  refine (C81_call ha hl hd nc hr hw.reach ho hm ht).mono fun x hh => hh.resolve_right fun hz => ?_
  cases hz with
  | noMethod h => rw [h1] at h; cases h
  | document h => exact h0 h
  | documentParent h => exact h0 h
  | foundParent _ _ _ _ h =>
    have h0 : o ≠ 0 := by
      rintro rfl
      exact h0 (hw.root (envOk_load hl)).2.2.1
    obtain ⟨p, hp⟩ := C64_obtained hl hw ho h0
    rw [hp] at h
    cases h
  | blank h => exact h hb
  | noComment h => exact hn _ rfl h
  | itemKey h => exact hi _ _ h
  | noKey h => rcases hc with hc | hc <;> rw [hc] at h <;> cases h
  | stuck h => obtain ⟨i, h⟩ := stuck_elem h; exact hs i h
  | stuckTo h => obtain ⟨i, h⟩ := stuck_elem h; exact hs i h
  | stuckIn _ h => exact hs _ h
  | yielded h => rcases hc with hc | hc <;> rw [hc] at h1 <;> cases h1
  | yieldedIn h => rcases hc with hc | hc <;> rw [hc] at h <;> cases h
  | unyielded h => rcases hc with hc | hc <;> rw [hc] at h <;> cases h
  | untouched h => rcases hc with hc | hc <;> rw [hc] at h <;> cases h
  | unread h => rcases hc with hc | hc <;> rw [hc] at h <;> cases h
  | raw => exact h2 rfl

/-- A method that the class does not have always ends with an `AttributeError`, and changes nothing. -/
theorem C81_noMethod (h : Offers (w.at o).cls m = false) : run E o m w = (.error (.py .attributeError), w) := by
  unfold run
  rw [bind_ok obj_run]
  generalize w.at o = x at h
  obtain ⟨c, _, _, _, _, _, _, _, _⟩ := x
  cases m with
  | many want key =>
    cases c with
    | of k =>
      cases want with
      | any => cases k <;> first | rfl | (cases h; done)
      | kind k' => cases k' <;> cases k <;> first | rfl | (cases h; done)
    | _ => cases want with
      | any => rfl
      | kind k' => cases k' <;> rfl
  | _ =>
    cases c with
    | of k => cases k <;> first | rfl | (cases h; done)
    | _ => first | rfl | (cases h; done)

/-! ## Non-trivial cases -/

theorem not_stuck {h : Heap} (hh : (h.all fun x => decide (x.elements.length ≤ 1)) = true) (i : Nat) : ¬ Stuck h i := by
  intro s
  induction s with
  | @here s i j pre post h1 _ =>
    have : (h.at s).elements.length ≤ 1 := by
      unfold Heap.at
      rw [List.getD_eq_getElem?_getD]
      cases hx : h[s]? with
      | none => exact Nat.zero_le _
      | some x => exact of_decide_eq_true (List.all_eq_true.1 hh x (List.mem_of_getElem? hx))
    rw [h1] at this
    simp at this
    omega
  | inner _ _ _ ih => exact ih

/-- The field of a document, read with `field('a')`, its comment with a loader that raises, and the method of a missing section. -/
example : ∃ E input ctx0 w o, analyze input = .ok ctx0 ∧ load input = .ok E.ctx ∧ E.ctx.heap.length + 1 ≤ E.depth ∧ NoCircles ctx0.heap ∧ E.o.reporter ≠ .terminal ∧ AfterParse E w ∧ Reach E w ∧
    o < w.objs.length ∧ (w.at o).cls = .of .field ∧ (∀ i, ¬ Stuck E.ctx.heap i) ∧ E.ctx.heap.comments (w.at o).ref ≠ none ∧ Readable (E.ctx.heap.comments (w.at o).ref) ∧
    Method.Fair (Leads E) (.comment true fun _ w => (.error (.py .indexError), w)) ∧ Method.Throws (fun _ => True) (· = .indexError) (.comment true fun _ w => (.error (.py .indexError), w)) ∧
    Offers (w.at o).cls (.comment true fun _ w => (.error (.py .indexError), w)) = true ∧ gotPy (run E o (.comment true fun _ w => (.error (.py .indexError), w)) w).1 = some .indexError ∧
    Reliable (.value true fun s => pure (.text s)) = true ∧ Offers (w.at o).cls (.value true fun s => pure (.text s)) = true ∧
    IsA w (Missing.under 0 (some (.kind .section)) none).section (.of .section) := by
  obtain ⟨c, a1, a2⟩ : ∃ c, analyze (chars!"> c\na: 1\n") = .ok c ∧ (c.heap.all fun x => !x.deepCopy) = true := by refine ⟨_, rfl, ?_⟩; decide +kernel
  obtain ⟨ctx, h0, h1, h2, h3, h4, h5, h6, h7, h8⟩ : ∃ ctx, load (chars!"> c\na: 1\n") = .ok ctx ∧ ctx.heap.length + 1 ≤ 99 ∧ (ctx.heap.all fun x => decide (x.elements.length ≤ 1)) = true ∧
      2 < (run ⟨{}, ctx, 99⟩ 0 (.one (.kind .field) none none) World.start).2.objs.length ∧ ((run ⟨{}, ctx, 99⟩ 0 (.one (.kind .field) none none) World.start).2.at 2).cls = .of .field ∧
      (ctx.heap.comments ((run ⟨{}, ctx, 99⟩ 0 (.one (.kind .field) none none) World.start).2.at 2).ref).isSome = true ∧
      ((ctx.heap.comments ((run ⟨{}, ctx, 99⟩ 0 (.one (.kind .field) none none) World.start).2.at 2).ref).any fun cs => cs.all (·.comment.isSome)) = true ∧
      gotPy (run ⟨{}, ctx, 99⟩ 2 (.comment true fun _ w => (.error (.py .indexError), w)) (run ⟨{}, ctx, 99⟩ 0 (.one (.kind .field) none none) World.start).2).1 = some .indexError ∧
      ((run ⟨{}, ctx, 99⟩ 0 (.one (.kind .field) none none) World.start).2.at 0).cls = .of .section := by
    refine ⟨_, rfl, ?_⟩; decide +kernel
  have L : Leads ⟨{}, ctx, 99⟩ World.start (run ⟨{}, ctx, 99⟩ 0 (.one (.kind .field) none none) World.start).2 := Leads.one (by exact trivial) 0
  refine ⟨⟨{}, ctx, 99⟩, _, c, _, 2, a1, h0, h1, (noDeep a2).no_circle a1 h0, by simp, L, L.reach, h3, h4, not_stuck h2, ?_, ?_, fun _ w => .refl w, fun _ w _ x e => by cases e; rfl, by rw [h4]; rfl, h7, rfl,
    by rw [h4]; rfl, by show 0 < _; omega, h8⟩
  · intro h; rw [h] at h5; cases h5
  · intro x h
    rw [h] at h6
    simpa using h6

/-- After `elements()` and one more call. -/
def after (ctx : Ctx) (o : Nat) (m : Method) : World := (run ⟨{}, ctx, 99⟩ o m (run ⟨{}, ctx, 99⟩ 0 (.many .any none) World.start).2).2

/-- All these things do happen. Object 0 is the document, 1 its first element, 2 its second, and so on. -/
example : ∃ ctx, load (chars!">\na: 1\nl:\n- x\nf:\ne = 1\n# s\n") = .ok ctx ∧
    -- the document
    gotPy (run ⟨{}, ctx, 99⟩ 0 (.error (.text [])) World.start).1 = some .keyError ∧
    gotPy (run ⟨{}, ctx, 99⟩ 0 .parent World.start).1 = some .keyError ∧
    -- an empty comment, and no comment
    gotPy (run ⟨{}, ctx, 99⟩ 1 (.comment false fun s => pure (.text s)) (after ctx 0 .touch)).1 = some .keyError ∧
    gotPy (run ⟨{}, ctx, 99⟩ 2 (.commentError (.text [])) (after ctx 0 .touch)).1 = some .keyError ∧
    -- yielded as something else
    gotPy (run ⟨{}, ctx, 99⟩ 2 (.to .field) (after ctx 2 (.to .list))).1 = some .typeError ∧
    -- sections that were not yielded
    gotPy (run ⟨{}, ctx, 99⟩ 0 (.allElementsRequired true) World.start).1 = some .attributeError ∧
    -- entries that were not touched
    gotPy (run ⟨{}, ctx, 99⟩ 5 (.assertAllTouched none [] []) (after ctx 3 (.to .fieldset))).1 = some .typeError ∧
    -- what `raw` cannot read
    gotPy (run ⟨{}, ctx, 99⟩ 0 .raw World.start).1 = some .keyError := by
  refine ⟨_, rfl, ?_⟩; decide +kernel

/-- The reporter gets stuck behind an empty element. -/
example : ∃ ctx, load (chars!"# s\na:\nb:\n") = .ok ctx ∧ gotPy (run ⟨{}, ctx, 99⟩ 1 (.error (.text [])) (after ctx 0 .touch)).1 = some .typeError := by
  refine ⟨_, rfl, ?_⟩; decide +kernel

end Eno.El
