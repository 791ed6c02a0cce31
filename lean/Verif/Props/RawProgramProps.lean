import Verif.Proofs.AskedSane
import Verif.Props.RawOnlyProps
import Verif.Props.HazardProps
import Verif.Props.PyTextProps
import Verif.Spec.Misuse

/-!
# More about C21 and C81: `raw` in programs, for documents without deep copies
-/

namespace Eno.El

open Spec

variable {input : Str} {ctx ctx' : Ctx} {w : World} {o : Nat} {E : Env}

theorem run_raw : run E o .raw w = (match readRaw E.ctx.input E.ctx.heap E.depth (w.at o).ref w.cache with
    | (.ok x, c) => (.ok (.raw x), { w with cache := c })
    | (.error x, c) => (.error (.py x), { w with cache := c })) := by
  have e : run E o .raw w = (Val.raw <$> rawOf E o : Api Val) w := by
    unfold run
    rw [bind_ok obj_run]
  have e2 : rawOf E o w = reading (readRaw E.ctx.input E.ctx.heap E.depth (w.at o).ref) w := by
    unfold rawOf; rw [bind_ok obj_run]
  rw [e, map_run, e2]
  unfold reading
  generalize readRaw E.ctx.input E.ctx.heap E.depth (w.at o).ref w.cache = q
  obtain ⟨q1 | q1, q2⟩ := q <;> rfl

/-- Given enough stack, all that a program has read is sound, whether the reads failed or not. -/
theorem program_sane (ha : analyze input = .ok ctx) (hl : load input = .ok ctx') (nd : NoDeepCopies ctx.heap) :
    ∃ N, ∀ E : Env, E.ctx = ctx' → N ≤ E.depth → ∀ w, Reach E w → EnvOk E ∧ Inv E w ∧ Sane input ctx.heap ctx'.heap w.cache ∧
      ∀ r, Actual ctx'.heap r ∨ r = .elem 0 → Tame input ctx.heap ctx'.heap (readRaw input ctx'.heap E.depth r) := by
  have L := loaded ha hl
  obtain ⟨M, hM⟩ := L.askable (input := input) nd
  refine ⟨max M 2, fun E he hd w hw => ?_⟩
  subst he
  have V := envOk_load hl
  have I := hw.inv V
  have hin := (loaded_complete ha hl).2.1
  subst hin
  have hlen := load_length ha hl
  have hp := L.non.ok.pos
  exact ⟨V, I, sane_asked L (by omega) hlen hp (hM E.depth (by omega)) I.asked, fun r hr => raw_tame_all L (by omega) hlen (hM E.depth (by omega)) hr hp⟩

/-- Without deep copies and given enough stack, `raw` of any object, whatever was done before, raises KeyError only if some comment of the document is a single empty line, TypeError only
if some section of it is a copy without own elements, and nothing else. -/
theorem C81_raw (ha : analyze input = .ok ctx) (hl : load input = .ok ctx') (nd : NoDeepCopies ctx.heap) :
    ∃ N, ∀ E : Env, E.ctx = ctx' → N ≤ E.depth → ∀ w, Reach E w → ∀ o,
      (∃ x, (run E o .raw w).1 = .ok (.raw x)) ∨ ((run E o .raw w).1 = .error (.py .keyError) ∧ ¬ CommentsReadable ctx.heap) ∨
        ((run E o .raw w).1 = .error (.py .typeError) ∧ BareCopy ctx.heap) := by
  obtain ⟨N, hN⟩ := program_sane ha hl nd
  refine ⟨N, fun E he hd w hw o => ?_⟩
  obtain ⟨V, I, S, T⟩ := hN E he hd w hw
  subst he
  have hin := (loaded_complete ha hl).2.1
  subst hin
  have T := (T _ (actual_of I o) _ S).2
  rw [run_raw]
  generalize readRaw E.ctx.input E.ctx.heap E.depth (w.at o).ref w.cache = q at T
  obtain ⟨q1 | q1, q2⟩ := q
  · rcases T q1 rfl with ⟨rfl, hb⟩ | ⟨rfl, hb⟩
    · exact .inr (.inl ⟨rfl, hb⟩)
    · exact .inr (.inr ⟨rfl, hb⟩)
  · exact .inl ⟨q1, rfl⟩

/-- Without deep copies and given enough stack, `raw` of the document returns, at any time of any program, if and only if no comment of it is a single empty line and no section of it is
a copy without own elements: nothing that a program does makes it fail or succeed. -/
theorem C81_raw_iff (ha : analyze input = .ok ctx) (hl : load input = .ok ctx') (nd : NoDeepCopies ctx.heap) :
    ∃ N, ∀ E : Env, E.ctx = ctx' → N ≤ E.depth → ∀ w, Reach E w → ∀ o, (w.at o).ref = .elem 0 →
      ((∃ x, (run E o .raw w).1 = .ok (.raw x)) ↔ CommentsReadable ctx.heap ∧ ¬ BareCopy ctx.heap) := by
  obtain ⟨N, hN⟩ := program_sane ha hl nd
  obtain ⟨M, hM⟩ := C81_raw ha hl nd
  refine ⟨max N M, fun E he hd w hw o ho => ⟨fun ⟨x, hx⟩ => ?_, fun ⟨h1, h2⟩ => ?_⟩⟩
  · obtain ⟨V, I, S, T⟩ := hN E he (by omega) w hw
    subst he
    refine smooth_only ha hl nd ?_
    rw [run_raw, ho] at hx
    generalize hq : readRaw E.ctx.input E.ctx.heap E.depth (.elem 0) w.cache = q at hx
    obtain ⟨q1 | q1, q2⟩ := q
    · cases hx
    · exact (whole_raw (whole_asked I.asked) hq).2
  · rcases hM E he (by omega) w hw o with h | h | h
    · exact h
    · exact absurd h1 h.2
    · exact absurd h.2 h2

/-- Without deep copies and given enough stack, `raw` of an object returns what the document says, whatever the program has done before, if comments are readable and either the object is no section
(nor the document) or no section of the document is a copy without own elements. -/
theorem C21_program_raw (ha : analyze input = .ok ctx) (hl : load input = .ok ctx') (nd : NoDeepCopies ctx.heap) :
    ∃ N, ∀ E : Env, E.ctx = ctx' → N ≤ E.depth → ∀ w, Reach E w → ∀ o, Sensible ctx.heap (.raw (w.at o).ref) →
      ∃ x, AnswerOf input ctx.heap (.raw (w.at o).ref) (.raw x) ∧ (run E o .raw w).1 = .ok (.raw x) := by
  have L := loaded ha hl
  obtain ⟨N, hN⟩ := program_sane ha hl nd
  obtain ⟨M, hM⟩ := L.enough (input := input)
  refine ⟨max N M, fun E he hd w hw o hq => ?_⟩
  obtain ⟨V, I, S, T⟩ := hN E he (by omega) w hw
  subst he
  have hin := (loaded_complete ha hl).2.1
  subst hin
  obtain ⟨a, h1⟩ := L.exists_answer (input := E.ctx.input) hq
  obtain ⟨c', h2, _⟩ := L.answer (hM E.depth (by omega)) hq h1 w.cache S.1
  have h1' := h1
  cases h1 with
  | raw hx =>
    rename_i x
    refine ⟨x, h1', ?_⟩
    rw [run_raw]
    unfold Query.run Read.map at h2
    dsimp only at h2
    generalize readRaw E.ctx.input E.ctx.heap E.depth (w.at o).ref w.cache = q at h2
    obtain ⟨q1 | q1, q2⟩ := q <;> cases h2
    rfl

/-- In a document without deep copies, without sections that are copies without own elements, without comments that are a single empty line, and where the reporter cannot get stuck, a call ends
with a Python exception only if a function that was passed raised it, or if the call asks for what is not there or elements were not yielded or touched as it takes (`Misused`), given enough stack. -/
theorem C81_sound (ha : analyze input = .ok ctx) (hl : load input = .ok ctx') (nd : NoDeepCopies ctx.heap) (nb : ¬ BareCopy ctx.heap) (cr : CommentsReadable ctx.heap)
    (ns : ∀ i, ¬ Stuck ctx'.heap i) :
    ∃ N, ∀ E : Env, E.ctx = ctx' → N ≤ E.depth → E.o.reporter ≠ .terminal → ∀ w, Reach E w → ∀ o, o < w.objs.length → ∀ (P : PyExc → Prop) (m : Method), m.Fair (Leads E) →
      m.Throws (fun _ => True) P → RaisesAt (fun x => P x ∨ Misused E w o m) (run E o m) w := by
  have L := loaded ha hl
  obtain ⟨N, hN⟩ := C81_raw ha hl nd
  refine ⟨max N (ctx'.heap.length + 1), fun E he hd hr w hw o ho P m hm ht => ?_⟩
  have hraw := hN E he (by omega) w hw o
  subst he
  intro x hx
  refine (C81_call ha hl (by omega) (NoDeepCopies.no_circle ha hl nd) hr hw ho hm ht x hx).imp_right fun hz => ?_
  cases hz with
  | noMethod h => exact .noMethod h
  | document h1 h2 => exact .document h1 (.inl h2)
  | documentParent h1 => exact .document h1 (.inr rfl)
  | foundParent _ _ _ _ h => exact .found h
  | blank h => exact absurd (fun c hc => L.shown cr _ [c] hc c rfl) h
  | noComment h => exact .noComment h
  | itemKey h1 h2 => exact .itemKey h1 h2
  | noKey h => exact .foundKey h
  | stuck h => obtain ⟨i, h⟩ := stuck_elem h; exact absurd h (ns i)
  | stuckTo h => obtain ⟨i, h⟩ := stuck_elem h; exact absurd h (ns i)
  | stuckIn _ h => exact absurd h (ns _)
  | yielded h1 h2 => exact .yielded h1 h2
  | yieldedIn _ h1 _ h2 h3 h4 => exact .yieldedIn h1 h2 h3 h4
  | unyielded _ h => exact .unyielded h
  | untouched h1 h2 h3 h4 => exact .untouched h1 h2 h3 h4
  | unread h1 h2 h3 h4 => exact .unread h1 h2 h3 h4
  | raw =>
    rcases hraw with ⟨y, h⟩ | ⟨_, h⟩ | ⟨_, h⟩
    · rw [h] at hx; cases hx
    · exact absurd cr h
    · exact absurd h nb

/-- And a call of a method of a missing element ends with a Python exception only if its class does not have the method, if the reporter cannot get stuck. -/
theorem C81_sound_missing {x : Missing} {m : Method} (ha : analyze input = .ok ctx) (hl : load input = .ok E.ctx) (hd : E.ctx.heap.length + 1 ≤ E.depth) (nd : NoDeepCopies ctx.heap)
    (ns : ∀ i, ¬ Stuck E.ctx.heap i) (hr : E.o.reporter ≠ .terminal) (hw : Reach E w) (hx : IsA w x.section (.of .section)) (hm : MissingOffers x.want m = true) :
    RaisesAt (fun _ => False) (runMissing E x m) w := by
  intro y hy
  cases C81_missing ha hl hd (NoDeepCopies.no_circle ha hl nd) hr hw hx y hy with
  | noMethod h => rw [hm] at h; cases h
  | stuck _ _ h =>
    obtain ⟨pre, i, j, post, h1, h2, _⟩ := h
    exact ns _ (.here h1 h2)

example : IsA World.start (Missing.under 0 (some (.kind .field)) (some (chars!"k"))).section (.of .section) ∧ MissingOffers (Missing.under 0 (some (.kind .field)) (some (chars!"k"))).want (.value true fun _ => pure .none) = true :=
  ⟨⟨by decide, rfl⟩, rfl⟩

/-- Where there are only sections and fields, nothing gets stuck. -/
theorem not_stuck_fields {h : Heap} (hh : (h.all fun x => decide (x.type = .document ∨ x.type = .section ∨ x.type = .field)) = true) (i : Nat) : ¬ Stuck h i := by
  have ty : ∀ j, (h.at j).type = .document ∨ (h.at j).type = .section ∨ (h.at j).type = .field := fun j => by simpa using at_all hh (by decide) j
  have ns : ∀ j, ¬ Silent h j := fun j H => by
    induction H with
    | «section» _ _ _ ih => exact ih
    | _ => have := ty ‹_›; simp_all
  intro H
  induction H with
  | here _ s => exact ns _ s
  | inner _ _ _ ih => exact ih

/-- A document to which `C81_sound` applies. -/
example : ∃ ctx ctx', analyze (chars!"> c\n# A\nx: 1\n# B < A\ny: 2") = .ok ctx ∧ load (chars!"> c\n# A\nx: 1\n# B < A\ny: 2") = .ok ctx' ∧ NoDeepCopies ctx.heap ∧ ¬ BareCopy ctx.heap ∧
    CommentsReadable ctx.heap ∧ ∀ i, ¬ Stuck ctx'.heap i := by
  obtain ⟨ctx, ctx', h1, h2, h3, h4, h5, h6⟩ : ∃ ctx ctx', analyze (chars!"> c\n# A\nx: 1\n# B < A\ny: 2") = .ok ctx ∧ load (chars!"> c\n# A\nx: 1\n# B < A\ny: 2") = .ok ctx' ∧
      ctx.heap.all (fun e => !e.deepCopy) = true ∧ (∀ s < ctx.heap.length, ¬ ((ctx.heap.at s).type = .section ∧ (ctx.heap.at s).copy.isSome ∧ (ctx.heap.at s).elements = [])) ∧
      commentsReadableB ctx.heap = true ∧ (ctx'.heap.all fun x => decide (x.type = .document ∨ x.type = .section ∨ x.type = .field)) = true := by
    refine ⟨_, _, rfl, rfl, ?_⟩; decide +kernel
  exact ⟨ctx, ctx', h1, h2, fun i => by simpa using at_all h3 (by decide) i, fun ⟨s, hs, h⟩ => h4 s hs h, commentsReadableB_sound h5, not_stuck_fields h6⟩

/-- A document and a program: `raw` of the document raises, and again after it was asked for its elements; the document has a section that is a copy without own elements. -/
example : ∃ ctx ctx', analyze (chars!"# A\nx: 1\n# B < A") = .ok ctx ∧ load (chars!"# A\nx: 1\n# B < A") = .ok ctx' ∧ NoDeepCopies ctx.heap ∧ BareCopy ctx.heap ∧
    gotPy (run ⟨{}, ctx', 99⟩ 0 .raw World.start).1 = some .typeError ∧
    gotPy (run ⟨{}, ctx', 99⟩ 0 .raw (run ⟨{}, ctx', 99⟩ 0 .raw World.start).2).1 = some .typeError := by
  obtain ⟨ctx, ctx', h1, h2, h3, h4, h5, h6⟩ : ∃ ctx ctx', analyze (chars!"# A\nx: 1\n# B < A") = .ok ctx ∧ load (chars!"# A\nx: 1\n# B < A") = .ok ctx' ∧
      ctx.heap.all (fun e => !e.deepCopy) = true ∧ (3 < ctx.heap.length ∧ (ctx.heap.at 3).type = .section ∧ (ctx.heap.at 3).copy.isSome ∧ (ctx.heap.at 3).elements = []) ∧
      gotPy (run ⟨{}, ctx', 99⟩ 0 .raw World.start).1 = some .typeError ∧
      gotPy (run ⟨{}, ctx', 99⟩ 0 .raw (run ⟨{}, ctx', 99⟩ 0 .raw World.start).2).1 = some .typeError := by
    refine ⟨_, _, rfl, rfl, ?_⟩; decide +kernel
  exact ⟨ctx, ctx', h1, h2, fun i => by simpa using at_all h3 (by decide) i, ⟨3, h4⟩, h5, h6⟩

/-- A document that satisfies what `C81_raw_iff` asks for. -/
example : ∃ ctx ctx', analyze (chars!"> c\n# A\nx: 1\n# B < A\ny: 2") = .ok ctx ∧ load (chars!"> c\n# A\nx: 1\n# B < A\ny: 2") = .ok ctx' ∧ NoDeepCopies ctx.heap ∧ ¬ BareCopy ctx.heap ∧
    (gotRaw (run ⟨{}, ctx', 99⟩ 0 .raw World.start).1).isSome = true := by
  obtain ⟨ctx, ctx', h1, h2, h3, h4, h5⟩ : ∃ ctx ctx', analyze (chars!"> c\n# A\nx: 1\n# B < A\ny: 2") = .ok ctx ∧ load (chars!"> c\n# A\nx: 1\n# B < A\ny: 2") = .ok ctx' ∧
      ctx.heap.all (fun e => !e.deepCopy) = true ∧ (∀ s < ctx.heap.length, ¬ ((ctx.heap.at s).type = .section ∧ (ctx.heap.at s).copy.isSome ∧ (ctx.heap.at s).elements = [])) ∧
      (gotRaw (run ⟨{}, ctx', 99⟩ 0 .raw World.start).1).isSome = true := by
    refine ⟨_, _, rfl, rfl, ?_⟩; decide +kernel
  exact ⟨ctx, ctx', h1, h2, fun i => by simpa using at_all h3 (by decide) i, fun ⟨s, hs, h⟩ => h4 s hs h, h5⟩

end Eno.El
