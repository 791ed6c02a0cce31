import Verif.Proofs.ElementSample

/-!
# Properties of missing objects, of loaders and of `assert_all_touched`, in any world that a program can reach
-/

namespace Eno.El

open Spec

variable {w w' w1 : World} {o y i : Nat} {E : Env} {input : Str} {ctx0 : Ctx} {rs : List Ref} {xs : List Nat} {only skip : List Str} {m : Method} {x x' : Missing} {v : Val}

/-! ## C44 -/

/-- Partial: `required_values` is left out. A read that needs what is missing raises an error about the outermost missing element. -/
theorem C44_required_partial (h : NeedsIt x.want m) :
    runMissing E x m w = (raised (missingElement E.o E.ctx x.outermost.2.2 (w.at x.outermost.1).ref.idx (messageFor x.outermost.2.1)), w) := by
  have all : ∀ x : Missing, (missingError E x : Api Val) w = (raised (missingElement E.o E.ctx x.outermost.2.2 (w.at x.outermost.1).ref.idx (messageFor x.outermost.2.1)), w) := by
    intro x
    induction x with
    | under s want key =>
      unfold missingError
      rw [bind_ok obj_run]
      exact validation_run
    | inside p want key ih => unfold missingError; exact ih
  generalize hx : x.want = q at h
  cases h <;> unfold runMissing <;> rw [hx] <;> exact all x

example : NeedsIt (Missing.inside (.under 0 (some (.kind .section)) (some (chars!"a"))) (some (.kind .field)) (some (chars!"b"))).want (.value true asText) ∧
    (Missing.inside (.under 0 (some (.kind .section)) (some (chars!"a"))) (some (.kind .field)) (some (chars!"b"))).outermost = (0, some (.kind .section), some (chars!"a")) :=
  ⟨.field, rfl⟩

/-- Every other read returns nothing, or an empty list. -/
theorem C44_optional (h : WithoutIt x.want m v) : runMissing E x m w = (.ok v, w) := by
  generalize hx : x.want = q at h
  cases h with
  | @many want k hw =>
    unfold runMissing
    rw [hx]
    cases want with
    | any => rfl
    | kind k => cases k <;> first | rfl | exact absurd rfl hw
  | _ => unfold runMissing; rw [hx]; rfl

example : WithoutIt (Missing.under 0 (some (.kind .section)) none).want (.many (.kind .list) none) (.list []) := .many (by decide)
example : WithoutIt (Missing.under 0 (some .any) none).want (.yields .list) (.bool true) := .yields

/-- A missing object that was got from a missing object is about the same outermost missing element: the section and the key are the same. -/
theorem C44_chain (h : runMissing E x m w = (.ok (.missing x'), w')) :
    w' = w ∧ x'.outermost.1 = x.outermost.1 ∧ x'.outermost.2.2 = x.outermost.2.2 ∧ (x'.outermost.2.1 = x.outermost.2.1 ∨ x.want = some .any) := by
  have noErr : ∀ {x : Missing}, (missingError E x : Api Val) w ≠ (.ok (.missing x'), w') := by
    intro x
    induction x with
    | under s want key =>
      unfold missingError
      rw [bind_ok obj_run, validation_run]
      intro h
      generalize missingElement _ _ _ _ _ = q at h
      cases q <;> cases h
    | inside p want key ih => unfold missingError; exact ih
  unfold runMissing at h
  generalize hq : x.want = q at h
  cases m with
  | to k =>
    rcases q with _ | (_ | _) <;> try (cases h; done)
    cases h
    cases x with
    | under s want key => exact ⟨rfl, rfl, rfl, .inr rfl⟩
    | inside p want key => exact ⟨rfl, rfl, rfl, .inl rfl⟩
  | entry key required =>
    rcases q with _ | (_ | k) <;> try (cases h; done)
    cases k <;> try (cases h; done)
    rcases required with _ | (_ | _)
    · cases h; exact ⟨rfl, rfl, rfl, .inl rfl⟩
    · cases h
    · exact absurd h noErr
  | one want key required =>
    rcases q with _ | (_ | k) <;> try (cases h; done)
    cases k <;> try (cases h; done)
    rcases required with _ | (_ | _)
    · cases h; exact ⟨rfl, rfl, rfl, .inl rfl⟩
    · cases h
    · exact absurd h noErr
  | comment required f =>
    cases required
    · cases h
    · exact absurd h noErr
  | value required f =>
    rcases q with _ | (_ | k) <;> try (cases h; done)
    · cases required
      · cases h
      · exact absurd h noErr
    · cases k <;> try (cases h; done)
      cases required
      · cases h
      · exact absurd h noErr
  | key f => exact absurd h noErr
  | many want key =>
    rcases want with _ | k2
    · rcases q with _ | (_ | k) <;> try (cases h; done)
      cases k <;> cases h
    · cases k2 <;> rcases q with _ | (_ | k) <;> (try (cases h; done)) <;> cases k <;> cases h
  | _ => rcases q with _ | (_ | k) <;> (try (cases h; done)) <;> cases k <;> cases h

example : runMissing E (.under 0 (some (.kind .section)) none) (.one (.kind .field) none none) w =
    (.ok (.missing (.inside (.under 0 (some (.kind .section)) none) (some (.kind .field)) none)), w) := rfl

/-- What a missing section or fieldset gives is missing as what was asked for, with the key that was asked for. -/
theorem C44_got {want : Want} {key : Option Str} :
    (x.want = some (.kind .section) → ∃ x', runMissing E x (.one want key none) w = (.ok (.missing x'), w) ∧ x'.want = some want ∧ x'.key = key) ∧
      (x.want = some (.kind .fieldset) → ∃ x', runMissing E x (.entry key none) w = (.ok (.missing x'), w) ∧ x'.want = none ∧ x'.key = key) := by
  constructor <;> intro h
  · refine ⟨.inside x (some want) key, ?_, rfl, rfl⟩
    unfold runMissing
    rw [h]
    rfl
  · refine ⟨.inside x none key, ?_, rfl, rfl⟩
    unfold runMissing
    rw [h]
    rfl

/-- The claim is false of `required_values` of a missing list: it returns an empty list. -/
theorem C44_refuted (f : Loader) : runMissing E (.under 0 (some (.kind .list)) none) (.values true f) w = (.ok (.list []), w) := rfl

/-! ## C45 -/

/-- Reading a value with any loader. There is a value `v`, the one that the document says, and a world that differs from the current one by the object being touched,
and then for every loader: without a value it is not called, and required access raises while optional access returns nothing; with a value it is called once with it,
in that world, and what it returns or raises is returned or raised, but its `ValueError` is raised as a validation error. -/
theorem C45_value (ha : analyze input = .ok ctx0) (hl : load input = .ok E.ctx) (hd : E.ctx.heap.length + 1 ≤ E.depth) (hw : Reach E w) (ho : o < w.objs.length)
    (hv : HasValue (w.at o).cls) :
    ∃ v w1, AnswerOf input ctx0.heap (.value (w.at o).ref) (.text v) ∧ w1.objs = markTouched w o ∧ ∀ required loader, run E o (.value required loader) w =
      match v with
      | none => if required then (raised (missingValue E.o E.ctx (w.at o).ref), w1) else (.ok .none, w1)
      | some text => handled (fun message => valueError E.o E.ctx message (w.at o).ref) (loader text w1) := by
  have V := envOk_load hl
  have I := hw.inv V
  obtain ⟨v, h1, h2⟩ := value_said ha hl hd I ho hv
  obtain ⟨w1, h3, _, h4⟩ := value_run V I h2
  refine ⟨v, w1, h1, h3, fun required f => ?_⟩
  have hr : run E o (.value required f) w = (Val.opt <$> value E o required f) w := by
    unfold run
    rw [bind_ok obj_run]
    rcases hv with h | h | h <;> rw [h]
  rw [hr, map_run, h4]
  cases v with
  | none =>
    dsimp only
    cases required
    · rfl
    · simp only [if_true]
      obtain ⟨e, he⟩ := raised_is (missingValue E.o E.ctx (w.at o).ref)
      rw [he, he]
  | some t =>
    dsimp only
    generalize handled _ _ = r
    obtain ⟨a, b⟩ := r
    cases a <;> rfl

example : ∃ E input ctx0 w o, analyze input = .ok ctx0 ∧ load input = .ok E.ctx ∧ E.ctx.heap.length + 1 ≤ E.depth ∧ Reach E w ∧ o < w.objs.length ∧ HasValue (w.at o).cls := by
  obtain ⟨E, S⟩ := sample
  obtain ⟨c, hc, _⟩ := sample_analyzed
  exact ⟨E, sampleText, c, sampleField E, 6, hc, S.loaded, S.depth, field_reach, S.field.2, .inl S.field.1⟩

/-- Partial: a single empty comment line is left out (C22). The same for comments; an empty comment is as good as none. -/
theorem C45_comment_partial (ha : analyze input = .ok ctx0) (hl : load input = .ok E.ctx) (hw : Reach E w) (hr : Readable (E.ctx.heap.comments (w.at o).ref)) :
    ∃ w1, w1.objs = markTouched w o ∧ ∀ required loader, run E o (.comment required loader) w =
      match Spec.commentOf (E.ctx.heap.comments (w.at o).ref) with
      | none | some [] => if required then (raised (missingComment E.o E.ctx (w.at o).ref), w1) else (.ok .none, w1)
      | some text => handled (fun message => commentError E.o E.ctx message (w.at o).ref) (loader text w1) := by
  have V := envOk_load hl
  have I := hw.inv V
  obtain ⟨w1, h3, h4⟩ := comment_run I (comment_said ha hl hr)
  refine ⟨w1, h3, fun required f => ?_⟩
  have hr : run E o (.comment required f) w = (Val.opt <$> comment E o required f) w := by
    unfold run
    rw [bind_ok obj_run]
  rw [hr, map_run, h4]
  rcases Spec.commentOf (E.ctx.heap.comments (w.at o).ref) with _ | _ | ⟨a, t⟩
  · dsimp only
    cases required
    · rfl
    · simp only [if_true]
      obtain ⟨e, he⟩ := raised_is (missingComment E.o E.ctx (w.at o).ref)
      rw [he, he]
  · dsimp only
    cases required
    · rfl
    · simp only [if_true]
      obtain ⟨e, he⟩ := raised_is (missingComment E.o E.ctx (w.at o).ref)
      rw [he, he]
  · dsimp only
    generalize handled _ _ = r
    obtain ⟨a, b⟩ := r
    cases a <;> rfl

example : ∃ E input ctx0 w o, analyze input = .ok ctx0 ∧ load input = .ok E.ctx ∧ Reach E w ∧ Readable (E.ctx.heap.comments (w.at o).ref) := by
  obtain ⟨E, S⟩ := sample
  obtain ⟨c, hc, _⟩ := sample_analyzed
  exact ⟨E, sampleText, c, sampleField E, 6, hc, S.loaded, field_reach, fun x h => by rw [S.comments] at h; cases h⟩

/-- Everything but the document has a key, and the loader is called with it. -/
theorem C45_key (hl : load input = .ok E.ctx) (hw : Reach E w) (ho : o < w.objs.length) (h0 : (w.at o).ref ≠ .elem 0) :
    ∃ k, KeyIs E.ctx.heap (w.at o).ref k ∧ ∀ loader, run E o (.key loader) w =
      handled (fun message => keyError E.o E.ctx message (w.at o).ref) (loader k { w with objs := markTouched w o }) := by
  have V := envOk_load hl
  have I := hw.inv V
  obtain ⟨k, hk⟩ := key_there V I ho h0
  refine ⟨k, hk, fun f => ?_⟩
  rw [← key_run V I ho hk f]
  unfold run
  rw [bind_ok obj_run]

example : ∃ E input w o, load input = .ok E.ctx ∧ Reach E w ∧ o < w.objs.length ∧ (w.at o).ref ≠ .elem 0 := by
  obtain ⟨E, S⟩ := sample
  exact ⟨E, sampleText, sampleYielded E, 1, S.loaded, yielded_reach, S.yielded.2.2.2.2.2.1, by rw [S.yielded.2.2.1]; decide⟩

/-- The values of a list are those of its items, in order, with loaders that do not use the elements themselves; the first that raises ends it. -/
theorem C45_values {f : Str → Except Exc Val} {required : Bool} (ha : analyze input = .ok ctx0) (hl : load input = .ok E.ctx) (hd : E.ctx.heap.length + 1 ≤ E.depth)
    (hw : Reach E w) (hx : IsA w o (.of .list)) (hit : Items E (w.at o) rs) :
    ∃ ps : List (Ref × Option Str), ps.map (·.1) = rs ∧ (∀ p ∈ ps, AnswerOf input ctx0.heap (.value p.1) (.text p.2)) ∧
      (run E o (.values required fun t w => (f t, w)) w).1 = (outcomes E required f ps).map .list := by
  have V := envOk_load hl
  have I := hw.inv V
  have K0 : Keeps E w (setTouched o w).2 := keeps_touched I
  have hit0 : Items E ((setTouched o w).2.at o) rs := by unfold Items; rw [(K0.later.obj o hx.1).ref]; exact hit
  obtain ⟨ys, w1, h, K, _, _, _, h3, h4⟩ := items_found K0.inv (hx.later K0.later) hit0
  obtain ⟨ps, p1, p2, p3⟩ := each_values (f := f) (required := required) ha hl hd ys w1 K.inv fun y hy => ⟨(h3 y hy).1, .inr (.inr (h3 y hy).2)⟩
  refine ⟨ps, p1.trans h4, p2, ?_⟩
  have e : run E o (.values required fun t w => (f t, w)) w = ((fun vs : List (Option Val) => Val.list (vs.map .opt)) <$> values E o required (plainLoader f)) w := by
    unfold run
    rw [bind_ok obj_run, hx.2]
    rfl
  rw [e, map_run]
  unfold values
  rw [bind_ok (m := setTouched o) (a := ()) (w' := (setTouched o w).2) rfl, bind_ok h, ← p3]
  generalize each _ ys w1 = q
  obtain ⟨a, b⟩ := q
  cases a <;> rfl

example : ∃ E input ctx0 w o, analyze input = .ok ctx0 ∧ load input = .ok E.ctx ∧ E.ctx.heap.length + 1 ≤ E.depth ∧ Reach E w ∧ IsA w o (.of .list) ∧ Items E (w.at o) [.item 4 0] := by
  obtain ⟨E, S⟩ := sample
  obtain ⟨c, hc, _⟩ := sample_analyzed
  exact ⟨E, sampleText, c, sampleList E, 6, hc, S.loaded, S.depth, list_reach, ⟨S.list.2.1, S.list.1⟩, S.list.2.2⟩

/-! ## C46 -/

/-- If `assert_all_touched` passes, all elements with the keys in question were used. -/
theorem C46_passes {msg : Option (MsgArg Nat)} (hl : load input = .ok E.ctx) (hw : Reach E w) (hx : IsA w o (.of .section)) (hel : Elements E (w.at o) xs)
    (h : (run E o (.assertAllTouched msg only skip) w).1 = .ok .none) : AllUsed E w o only skip xs := by
  have V := envOk_load hl
  obtain ⟨res, w1, K, U, T, hr, h1, h2⟩ := assert_found (only := only) (skip := skip) V (hw.inv V) hx hel
  have e : run E o (.assertAllTouched msg only skip) w = (do assertAllTouched E o msg only skip; pure Val.none) w := by
    unfold run
    rw [bind_ok obj_run, hx.2]
  rw [e, bind_run, hr] at h
  cases res with
  | error e => cases h
  | ok a => cases a with
    | none => exact h1 rfl
    | some r =>
      exfalso
      dsimp only at h
      unfold complaint at h
      rcases msg with _ | (s | f) <;> dsimp only at h
      · obtain ⟨e, he⟩ := raised_is (unexpectedElement E.o E.ctx none r)
        rw [he] at h; cases h
      · obtain ⟨e, he⟩ := raised_is (unexpectedElement E.o E.ctx (some s) r)
        rw [he] at h; cases h
      · generalize f _ _ = q at h
        obtain ⟨a, b⟩ := q
        cases a with
        | error e => cases h
        | ok s =>
          dsimp only at h
          obtain ⟨e, he⟩ := raised_is (unexpectedElement E.o E.ctx (some s) r)
          rw [he] at h; cases h

/-- Partial: documents in which a section is, in the end, merged with itself are left out, where looking for elements may not end (C73). If all were used, it passes and touches nothing; otherwise it raises about one
that was not. -/
theorem C46_partial {msg : Option (MsgArg Nat)} (ha : analyze input = .ok ctx0) (hl : load input = .ok E.ctx) (hd : E.ctx.heap.length ≤ E.depth) (nc : NoCircles ctx0.heap)
    (hw : Reach E w) (hx : IsA w o (.of .section)) (hel : Elements E (w.at o) xs) :
    ∃ w1, (∀ p, p < w.objs.length → (w1.at p).touched = (w.at p).touched) ∧
      (AllUsed E w o only skip xs → run E o (.assertAllTouched msg only skip) w = (.ok .none, w1)) ∧
      (¬ AllUsed E w o only skip xs → ∃ r i z, i ∈ xs ∧ Concerns only skip (E.ctx.heap.at i).key ∧ ObjectFor w1 o i z ∧ UnusedElement w1 z r ∧
        run E o (.assertAllTouched msg only skip) w = ((complaint E o msg r w1).1.map fun _ => .none, (complaint E o msg r w1).2)) := by
  have V := envOk_load hl
  obtain ⟨res, w1, K, U, T, hr, h1, h2⟩ := assert_found (only := only) (skip := skip) V (hw.inv V) hx hel
  have e : run E o (.assertAllTouched msg only skip) w = (do assertAllTouched E o msg only skip; pure Val.none) w := by
    unfold run
    rw [bind_ok obj_run, hx.2]
  obtain ⟨a, rfl⟩ := T (noFail_load ha hl hd (finite_load ha hl hd nc))
  refine ⟨w1, fun p hp => (U.obj p hp).1, fun all => ?_, fun hn => ?_⟩
  · cases a with
    | none => rw [e, bind_run, hr]; rfl
    | some r => exact absurd all (h2 r rfl).1
  · cases a with
    | none => exact absurd (h1 rfl) hn
    | some r =>
      obtain ⟨_, i, z, hi, hs, hz, hu⟩ := h2 r rfl
      refine ⟨r, i, z, hi, hs, hz, hu, ?_⟩
      rw [e, bind_run, hr]
      dsimp only
      generalize complaint E o msg r w1 = q
      obtain ⟨a, b⟩ := q
      cases a <;> rfl

example : ∃ E input ctx0 w o xs, analyze input = .ok ctx0 ∧ load input = .ok E.ctx ∧ E.ctx.heap.length ≤ E.depth ∧ NoCircles ctx0.heap ∧ Reach E w ∧ IsA w o (.of .section) ∧
    Elements E (w.at o) xs ∧ ¬ AllUsed E w o [] [] xs := by
  obtain ⟨E, S⟩ := sample
  obtain ⟨c, hc, nd⟩ := sample_analyzed
  refine ⟨E, sampleText, c, World.start, 0, _, hc, S.loaded, Nat.le_of_succ_le S.depth, nd.no_circle hc S.loaded, start_reach, start_section, S.elements, fun h => ?_⟩
  obtain ⟨⟨y, hy⟩, _⟩ := h 1 (by decide) ⟨by simp, .inl rfl⟩
  obtain ⟨ys, h, _⟩ := hy.listed
  cases h

/-- The call raises a validation error. -/
def isValidation : Except Exc Val → Bool
  | .error (.validation _) => true
  | _ => false

/-- `touch()` does not touch everything: it leaves out elements of which nothing was made. -/
theorem C46_touch_refuted : ∃ E, load (chars!"a: 1\n") = .ok E.ctx ∧ isValidation (run E 0 (.assertAllTouched none [] []) (run E 0 .touch World.start).2).1 = true := by
  obtain ⟨ctx, h1, h2⟩ : ∃ ctx, load (chars!"a: 1\n") = .ok ctx ∧
      isValidation (run ⟨{}, ctx, 9⟩ 0 (.assertAllTouched none [] []) (run ⟨{}, ctx, 9⟩ 0 .touch World.start).2).1 = true := by
    refine ⟨_, rfl, ?_⟩; decide +kernel
  exact ⟨⟨{}, ctx, 9⟩, h1, h2⟩

/-- The call returns nothing. -/
def isNone : Except Exc Val → Bool
  | .ok .none => true
  | _ => false

/-- All were used: a document with one field, after its value was read. -/
example : ∃ E input ctx0 w o xs, analyze input = .ok ctx0 ∧ load input = .ok E.ctx ∧ E.ctx.heap.length ≤ E.depth ∧ NoCircles ctx0.heap ∧ Reach E w ∧
    IsA w o (.of .section) ∧ Elements E (w.at o) xs ∧ xs ≠ [] ∧ AllUsed E w o [] [] xs := by
  obtain ⟨c, ctx, a1, a2, h1, h2, h3, h4⟩ : ∃ c ctx, analyze (chars!"a: 1\n") = .ok c ∧ (c.heap.all fun x => !x.deepCopy) = true ∧ load (chars!"a: 1\n") = .ok ctx ∧
      ctx.heap.length ≤ 9 ∧ (instElements ctx.heap 9 0 []).toOption = some [1] ∧
      isNone (run ⟨{}, ctx, 9⟩ 0 (.assertAllTouched none [] [])
        (run ⟨{}, ctx, 9⟩ 2 (.value true asText) (run ⟨{}, ctx, 9⟩ 0 (.one (.kind .field) none none) World.start).2).2).1 = true := by
    refine ⟨_, _, rfl, ?_, rfl, ?_, ?_, ?_⟩ <;> decide +kernel
  have ok : ∀ {α} {x : Except PyExc α} {a : α}, x.toOption = some a → x = .ok a := fun {α x a} h => by cases x <;> cases h; rfl
  have hr : AfterParse ⟨{}, ctx, 9⟩ (run ⟨{}, ctx, 9⟩ 2 (.value true asText) (run ⟨{}, ctx, 9⟩ 0 (.one (.kind .field) none none) World.start).2).2 :=
    Leads.trans (Leads.one (by exact trivial) 0) (Leads.one (by intro a w; rfl) 2)
  generalize (run ⟨{}, ctx, 9⟩ 2 (.value true asText) (run ⟨{}, ctx, 9⟩ 0 (.one (.kind .field) none none) World.start).2).2 = w2 at hr h4
  have R := hr.root (envOk_load h1)
  have hx : IsA w2 0 (.of .section) := ⟨R.1, R.2.1⟩
  have hel : Elements ⟨{}, ctx, 9⟩ (w2.at 0) [1] := by unfold Elements; rw [R.2.2.1]; exact ok h3
  refine ⟨⟨{}, ctx, 9⟩, _, c, _, 0, [1], a1, h1, h2, (noDeep a2).no_circle a1 h1, hr.reach, hx, hel, by decide, C46_passes (msg := none) h1 hr.reach hx hel ?_⟩
  unfold isNone at h4
  split at h4
  · assumption
  · cases h4

end Eno.El
