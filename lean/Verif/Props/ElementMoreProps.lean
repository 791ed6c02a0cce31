import Verif.Proofs.WorldRequire
import Verif.Proofs.ElementSample

/-!
# More properties of elements, in any world that a program can reach

`E` holds the loaded document, `w` is the world after any program ran, `o` an object in it.
-/

namespace Eno.El

open Spec

variable {w w' w1 : World} {o y i : Nat} {E : Env} {input : Str} {ctx0 : Ctx} {xs : List Nat} {rs : List Ref} {key : Option Str} {required : Option Bool}

/-! ## C61 -/

theorem entries_named (V : EnvOk E) (I : Inv E w) (hx : IsA w o (.of .fieldset)) (hit : Entries E (w.at o) rs) (key : Option Str) :
    ∃ ys w1, named (fieldsetEntries E o) o key (setTouched o w).2 = (.ok ys, w1) ∧ Keeps E w w1 ∧ (w1.at o).required = (w.at o).required ∧
      (∀ y ∈ ys, IsA w1 y .entry ∧ (w1.at y).parent = some o) ∧ ys.map (fun y => (w1.at y).ref) = entriesWithKey E.ctx.heap key rs := by
  have K0 : Keeps E w (setTouched o w).2 := keeps_touched I
  have hx0 := hx.later K0.later
  have hit0 : Entries E ((setTouched o w).2.at o) rs := by unfold Entries; rw [(K0.later.obj o hx.1).ref]; exact hit
  obtain ⟨ys, w1, h, K, U, KO, hc, h3, h4⟩ := entries_found V K0.inv hx0 hit0
  refine ⟨_, w1, named_run h KO (by rw [(hx0.later K.later).2]; simp), K0.trans K, ?_, ?_, ?_⟩
  · rw [(U.obj o hx0.1).2.2.2, at_touched]; split <;> rfl
  · intro y hy
    have := (List.mem_filter.1 hy).1
    exact ⟨h3 y this, (KO.members y this).2.2.2⟩
  · rw [← h4]
    have all : ∀ l : List Nat, l.filter (fun _ => true) = l := fun l => List.filter_eq_self.2 fun _ _ => rfl
    rcases key with _ | _ | ⟨c, k⟩
    · unfold asked entriesWithKey; rw [all]
    · unfold asked entriesWithKey; rw [all]
    · unfold asked entriesWithKey
      dsimp only
      rw [List.filter_map]
      congr 1
      apply List.filter_congr
      intro y hy
      have R := (K.inv.objs y (h3 y hy).1).ref
      rw [(h3 y hy).2] at R
      unfold keyAt
      cases hr : (w1.at y).ref with
      | elem i => rw [hr] at R; exact R.elim
      | item i j => rw [hr] at R; exact R.elim
      | entry i j =>
        rw [Function.comp_apply, hr]
        change decide (((E.ctx.heap.sub? (.entry i j)).bind (·.key)).getD [] = c :: k) = _
        cases (E.ctx.heap.sub? (.entry i j)).bind (·.key) <;> simp

/-- `entries` returns the objects of the entries with the key, in order. -/
theorem C61_entries (hl : load input = .ok E.ctx) (hw : Reach E w) (hx : IsA w o (.of .fieldset)) (hit : Entries E (w.at o) rs) :
    ∃ ys, (run E o (.entries key) w).1 = .ok (.objs ys) ∧
      ys.map (fun y => ((run E o (.entries key) w).2.at y).ref) = entriesWithKey E.ctx.heap key rs ∧
      ∀ y ∈ ys, IsA (run E o (.entries key) w).2 y .entry ∧ ((run E o (.entries key) w).2.at y).parent = some o := by
  have V := envOk_load hl
  obtain ⟨ys, w1, h, K, _, h2, h3⟩ := entries_named V (hw.inv V) hx hit key
  have hr : run E o (.entries key) w = (.ok (.objs ys), w1) := by
    unfold run
    rw [bind_ok obj_run, hx.2]
    dsimp only
    rw [map_run]
    unfold entries
    rw [bind_ok (m := setTouched o) (a := ()) (w' := (setTouched o w).2) rfl, h]
  rw [hr]
  exact ⟨ys, rfl, h3, h2⟩

theorem entry_found (V : EnvOk E) (I : Inv E w) (hx : IsA w o (.of .fieldset)) (hit : Entries E (w.at o) rs) (key : Option Str) (required : Option Bool) :
    ∃ ys w1, Keeps E w w1 ∧ (∀ y ∈ ys, IsA w1 y .entry ∧ (w1.at y).parent = some o) ∧ ys.map (fun y => (w1.at y).ref) = entriesWithKey E.ctx.heap key rs ∧
      run E o (.entry key required) w = match ys with
        | [] => if required = some true ∨ (w.at o).required = true then (raised (missingElement E.o E.ctx key (w.at o).ref.idx .missingFieldsetEntry), w1) else (.ok .none, w1)
        | [y] => (.ok (.obj y), w1)
        | _ => (raised (unexpectedMultipleElements E.o E.ctx key (entriesWithKey E.ctx.heap key rs) .expectedSingleFieldsetEntry), w1) := by
  obtain ⟨ys, w1, h, K, hreq, h2, h3⟩ := entries_named V I hx hit key
  refine ⟨ys, w1, K, h2, h3, ?_⟩
  unfold run
  rw [bind_ok obj_run, hx.2]
  dsimp only
  rw [map_run]
  unfold entry
  rw [bind_ok (m := setTouched o) (a := ()) (w' := (setTouched o w).2) rfl, bind_ok h, bind_ok obj_run, hreq, (K.later.obj o hx.1).ref]
  rcases ys with _ | ⟨y, _ | ⟨z, ys⟩⟩
  · dsimp only
    by_cases c : required = some true ∨ (w.at o).required = true
    · rw [if_pos c, if_pos (by simpa using c), validation_run]
      obtain ⟨e, he⟩ := raised_is (missingElement E.o E.ctx key (w.at o).ref.idx .missingFieldsetEntry)
      rw [he, he]
    · rw [if_neg c, if_neg (by simpa using c)]
      rfl
  · rfl
  · dsimp only
    rw [bind_ok (refs_run _), h3, validation_run]
    obtain ⟨e, he⟩ := raised_is (unexpectedMultipleElements E.o E.ctx key (entriesWithKey E.ctx.heap key rs) .expectedSingleFieldsetEntry)
    rw [he, he]

/-- `entry`, if there is none with the key: access that is required, or in a fieldset all of whose entries are, raises, and other access returns nothing. -/
theorem C61_none (hl : load input = .ok E.ctx) (hw : Reach E w) (hx : IsA w o (.of .fieldset)) (hit : Entries E (w.at o) rs) (hk : entriesWithKey E.ctx.heap key rs = []) :
    (run E o (.entry key required) w).1 =
      if required = some true ∨ (w.at o).required = true then raised (missingElement E.o E.ctx key (w.at o).ref.idx .missingFieldsetEntry) else .ok .none := by
  have V := envOk_load hl
  obtain ⟨ys, w1, _, _, h3, h4⟩ := entry_found V (hw.inv V) hx hit key required
  rw [hk] at h3
  have : ys = [] := by simpa using h3
  subst this
  rw [h4]
  dsimp only
  split <;> rfl

/-- If there is exactly one, `entry` returns its object. -/
theorem C61_one {r : Ref} (hl : load input = .ok E.ctx) (hw : Reach E w) (hx : IsA w o (.of .fieldset)) (hit : Entries E (w.at o) rs) (hk : entriesWithKey E.ctx.heap key rs = [r]) :
    ∃ y, (run E o (.entry key required) w).1 = .ok (.obj y) ∧ IsA (run E o (.entry key required) w).2 y .entry ∧
      ((run E o (.entry key required) w).2.at y).ref = r ∧ ((run E o (.entry key required) w).2.at y).parent = some o := by
  have V := envOk_load hl
  obtain ⟨ys, w1, _, h2, h3, h4⟩ := entry_found V (hw.inv V) hx hit key required
  rw [hk] at h3
  obtain ⟨y, rfl⟩ : ∃ y, ys = [y] := List.length_eq_one_iff.1 (by simpa using congrArg List.length h3)
  rw [h4]
  exact ⟨y, rfl, (h2 y (by simp)).1, by simpa using h3, (h2 y (by simp)).2⟩

/-- If there are several, `entry` raises an error about all of them. -/
theorem C61_several (hl : load input = .ok E.ctx) (hw : Reach E w) (hx : IsA w o (.of .fieldset)) (hit : Entries E (w.at o) rs)
    (hk : 2 ≤ (entriesWithKey E.ctx.heap key rs).length) :
    (run E o (.entry key required) w).1 = raised (unexpectedMultipleElements E.o E.ctx key (entriesWithKey E.ctx.heap key rs) .expectedSingleFieldsetEntry) := by
  have V := envOk_load hl
  obtain ⟨ys, w1, _, _, h3, h4⟩ := entry_found V (hw.inv V) hx hit key required
  have hz : 2 ≤ ys.length := by
    have := congrArg List.length h3
    simp only [List.length_map] at this
    omega
  obtain ⟨a, b, t, rfl⟩ : ∃ a b t, ys = a :: b :: t := by
    match ys, hz with
    | a :: b :: t, _ => exact ⟨a, b, t, rfl⟩
  rw [h4]

/-- A fieldset with an entry `b`, two entries `c` and none `x`. -/
example : ∃ E input w o rs r, load input = .ok E.ctx ∧ Reach E w ∧ IsA w o (.of .fieldset) ∧ Entries E (w.at o) rs ∧ entriesWithKey E.ctx.heap (some (chars!"b")) rs = [r] ∧
    2 ≤ (entriesWithKey E.ctx.heap (some (chars!"c")) rs).length ∧ entriesWithKey E.ctx.heap (some (chars!"x")) rs = [] := by
  obtain ⟨ctx, h1, h2, h3, h4, h5, h6⟩ : ∃ ctx, load (chars!"a:\nb = 1\nc = 2\nc = 3\n") = .ok ctx ∧
      (2 < (run ⟨{}, ctx, 9⟩ 0 (.one (.kind .fieldset) none none) World.start).2.objs.length ∧ ((run ⟨{}, ctx, 9⟩ 0 (.one (.kind .fieldset) none none) World.start).2.at 2).cls = .of .fieldset) ∧
      ((instEntries ctx.heap 9 ((run ⟨{}, ctx, 9⟩ 0 (.one (.kind .fieldset) none none) World.start).2.at 2).ref.idx []).toOption.map (·.2)) = some [.entry 1 0, .entry 1 1, .entry 1 2] ∧
      entriesWithKey ctx.heap (some (chars!"b")) [.entry 1 0, .entry 1 1, .entry 1 2] = [.entry 1 0] ∧
      2 ≤ (entriesWithKey ctx.heap (some (chars!"c")) [.entry 1 0, .entry 1 1, .entry 1 2]).length ∧
      entriesWithKey ctx.heap (some (chars!"x")) [.entry 1 0, .entry 1 1, .entry 1 2] = [] := by
    refine ⟨_, rfl, ?_, ?_, ?_, ?_, ?_⟩ <;> decide +kernel
  refine ⟨⟨{}, ctx, 9⟩, _, _, 2, _, _, h1, (Leads.one (m := .one (.kind .fieldset) none none) trivial 0).reach, h2, ?_, h4, h5, h6⟩
  unfold Entries
  revert h3
  dsimp only
  generalize instEntries ctx.heap 9 _ [] = p
  intro h
  cases p with
  | error e => cases h
  | ok p => obtain ⟨a, b⟩ := p; cases h; exact ⟨a, rfl⟩

/-! ## C62 -/

/-- How the methods that make errors do it. -/
theorem message_run {α} {a : Api α} {v : α} {m : MsgArg α} {err : Str → Ref → Except PyExc ErrObj} (V : EnvOk E) (ho : o < w.objs.length) (h : a w = (.ok v, w1)) (K : Keeps E w w1)
    (hm : m.Fair (Leads E)) :
    (Val.error <$> (do let message ← m.get a; let x ← obj o; makeError (err message x.ref) : Api ErrObj)) w =
      withMessage (fun s => err s (w.at o).ref) m v (worldFor m w w1) := by
  have ret : ∀ {x : Except PyExc ErrObj} {w : World}, (Val.error <$> makeError x) w = (returned x, w) := by
    intro x w
    cases x <;> rfl
  have map_bind : ∀ {γ} (m : Api γ) (f : γ → Api ErrObj) (w : World), (Val.error <$> (m >>= f)) w = (m >>= fun c => Val.error <$> f c) w := by
    intro γ m f w
    rw [map_run, bind_run, bind_run]
    generalize m w = r
    obtain ⟨c, w'⟩ := r
    cases c <;> rfl
  rw [map_bind]
  cases m with
  | text s =>
    unfold MsgArg.get withMessage worldFor
    dsimp only
    rw [bind_ok (pure_run s), map_bind, bind_ok obj_run, ret]
  | fn f =>
    unfold MsgArg.get withMessage worldFor
    dsimp only
    have e : (do f (← a) : Api Str) w = f v w1 := by rw [bind_ok h]
    rw [bind_run, e]
    have L := hm v w1
    generalize f v w1 = r at L
    obtain ⟨c, w2⟩ := r
    cases c with
    | error e => rfl
    | ok s =>
      dsimp only
      have K2 := Leads.keeps V K.inv L
      rw [map_bind, bind_ok obj_run, ret, ((K.trans K2).later.obj o ho).ref]

/-- `error` takes a text, or a function that is called once with the object itself. -/
theorem C62_error {m : MsgArg Nat} (hl : load input = .ok E.ctx) (hw : Reach E w) (ho : o < w.objs.length) (hm : m.Fair (Leads E)) :
    run E o (.error m) w = withMessage (fun s => elementError E.o E.ctx s (w.at o).ref) m o w := by
  have V := envOk_load hl
  have := message_run (m := m) (err := elementError E.o E.ctx) V ho (pure_run o) (.refl (hw.inv V)) hm
  rw [worldFor_same] at this
  rw [← this]
  unfold run
  rw [bind_ok obj_run]
  rfl

example : ∃ E input w o, load input = .ok E.ctx ∧ Reach E w ∧ o < w.objs.length ∧ MsgArg.Fair (Leads E) (.fn fun o w => (.ok (chars!"m"), (run E o .touch w).2)) := by
  obtain ⟨E, S⟩ := sample
  exact ⟨E, _, World.start, 0, S.loaded, start_reach, start_section.1, fun o w => Leads.one (m := .touch) trivial o⟩

/-- `key_error` takes a text, or a function that is called once with the key. -/
theorem C62_key {m : MsgArg Str} (hl : load input = .ok E.ctx) (hw : Reach E w) (ho : o < w.objs.length) (h0 : (w.at o).ref ≠ .elem 0) (hm : m.Fair (Leads E)) :
    ∃ k, KeyIs E.ctx.heap (w.at o).ref k ∧ run E o (.keyError m) w = withMessage (fun s => keyError E.o E.ctx s (w.at o).ref) m k w := by
  have V := envOk_load hl
  have I := hw.inv V
  obtain ⟨k, hk⟩ := key_there V I ho h0
  refine ⟨k, hk, ?_⟩
  have kr : keyOf E o w = (.ok k, w) := by
    unfold keyOf
    rw [bind_ok obj_run]
    cases hq : (w.at o).ref with
    | elem i =>
      rw [hq] at hk
      obtain ⟨hk1, hk2⟩ := hk
      subst hk2
      have hi : i < E.ctx.heap.length := elem_lt I ho hq hk1
      dsimp only [Heap.key?]
      rw [if_neg (V.types i hk1 hi)]
      rfl
    | item i j => rw [hq] at hk; cases hk; rfl
    | entry i j =>
      rw [hq] at hk
      obtain ⟨x, h1, h2⟩ := hk
      dsimp only [Heap.key?]
      rw [h1]
      dsimp only [Option.bind]
      rw [h2]
      rfl
  have := message_run (m := m) (err := keyError E.o E.ctx) V ho kr (.refl I) hm
  rw [worldFor_same] at this
  rw [← this]
  unfold run
  rw [bind_ok obj_run]
  rfl

/-- `value_error` takes a text, or a function that is called once with the value that the document says; nothing is touched. -/
theorem C62_value (ha : analyze input = .ok ctx0) (hl : load input = .ok E.ctx) (hd : E.ctx.heap.length + 1 ≤ E.depth) (hw : Reach E w) (ho : o < w.objs.length)
    (hv : HasValue (w.at o).cls) :
    ∃ v w1, AnswerOf input ctx0.heap (.value (w.at o).ref) (.text v) ∧ w1.objs = w.objs ∧ ∀ m : MsgArg (Option Str), m.Fair (Leads E) →
      run E o (.valueError m) w = withMessage (fun s => valueError E.o E.ctx s (w.at o).ref) m v (worldFor m w w1) := by
  have V := envOk_load hl
  have I := hw.inv V
  obtain ⟨v, h1, h2⟩ := value_said ha hl hd I ho hv
  have hread := reading_run (w := w) (h2 _ I.cache)
  refine ⟨v, { w with cache := (readValue E.ctx.input E.ctx.heap E.depth (w.at o).ref w.cache).2 }, h1, rfl, fun m hm => ?_⟩
  have hr := hread
  rw [show reading _ w = valueOf E o w by unfold valueOf; rw [bind_ok obj_run]] at hr
  rw [← message_run (m := m) (err := valueError E.o E.ctx) V ho hr (keeps_cache I (readValue_fresh V.values _ I.cache) (.value _ I.asked)) hm]
  unfold run
  rw [bind_ok obj_run]
  rcases hv with h | h | h <;> rw [h] <;> rfl

/-- The same for `comment_error` and comments. Partial: comments that consist of one empty comment are left out, with which the function is never called (C22). -/
theorem C62_comment_partial (ha : analyze input = .ok ctx0) (hl : load input = .ok E.ctx) (hw : Reach E w) (ho : o < w.objs.length) (hr : Readable (E.ctx.heap.comments (w.at o).ref)) :
    ∃ w1, w1.objs = w.objs ∧ ∀ m : MsgArg (Option Str), m.Fair (Leads E) →
      run E o (.commentError m) w =
        withMessage (fun s => commentError E.o E.ctx s (w.at o).ref) m (Spec.commentOf (E.ctx.heap.comments (w.at o).ref)) (worldFor m w w1) := by
  have V := envOk_load hl
  have I := hw.inv V
  have hread := reading_run (w := w) (comment_said ha hl hr _ I.cache)
  refine ⟨{ w with cache := (readComment E.ctx.heap (w.at o).ref w.cache).2 }, rfl, fun m hm => ?_⟩
  have hr := hread
  rw [show reading _ w = El.commentOf E o w by unfold El.commentOf; rw [bind_ok obj_run]] at hr
  rw [← message_run (m := m) (err := commentError E.o E.ctx) V ho hr (keeps_cache I (readComment_fresh I.cache) (.comment _ I.asked)) hm]
  unfold run
  rw [bind_ok obj_run]
  rfl

/-- The field `a` of the sample. -/
example : ∃ E input ctx0 w o, analyze input = .ok ctx0 ∧ load input = .ok E.ctx ∧ E.ctx.heap.length + 1 ≤ E.depth ∧ Reach E w ∧ o < w.objs.length ∧ HasValue (w.at o).cls ∧
    (w.at o).ref ≠ .elem 0 ∧ Readable (E.ctx.heap.comments (w.at o).ref) := by
  obtain ⟨E, S⟩ := sample
  obtain ⟨c, hc, nd⟩ := sample_analyzed
  obtain ⟨h1, h2⟩ := S.field
  have V := envOk_load S.loaded
  have I := (field_reach (E := E)).inv V
  refine ⟨E, _, c, sampleField E, 6, hc, S.loaded, S.depth, field_reach, h2, .inl h1, fun h => ?_, fun x e => ?_⟩
  · have O := (I.objs 6 h2).ref
    rw [h1, h] at O
    cases O.2.1 rfl
  · rw [S.comments] at e; cases e

/-! ## C63 -/

/-- `all_elements_required(b)`, if it returns, sets the flag of the section and of all sections and fieldsets in it, and no other; nothing is touched. -/
theorem C63_flags {b : Bool} (hl : load input = .ok E.ctx) (hw : Reach E w) (hx : IsA w o (.of .section)) (hr : run E o (.allElementsRequired b) w = (.ok .none, w')) :
    ∀ q, q < w.objs.length → (w'.at q).touched = (w.at q).touched ∧ (Required E w o q → (w'.at q).required = b) ∧ (¬ Required E w o q → (w'.at q).required = (w.at q).required) := by
  have V := envOk_load hl
  have I := hw.inv V
  have T := requires_section (b := b) V (w.objs.length + 1) o w I I.bounded hx hx.1 (by omega)
  have e : run E o (.allElementsRequired b) w = (do requireAll E (w.objs.length + 1) b o; pure Val.none) w := by
    unfold run
    rw [bind_ok obj_run, hx.2]
    rfl
  rw [e, bind_run] at hr
  cases hq : requireAll E (w.objs.length + 1) b o w with
  | mk r w2 =>
    rw [hq] at hr T
    cases r with
    | error e => cases hr
    | ok a =>
      cases hr
      exact fun q hq => ⟨T.touched q, T.marks ⟨_, rfl⟩ q hq⟩

/-- Partial: documents in which a section is, in the end, merged with itself are left out (C73). It returns if all sections and fieldsets in the section were yielded; otherwise it raises `AttributeError`. -/
theorem C63_partial {b : Bool} (ha : analyze input = .ok ctx0) (hl : load input = .ok E.ctx) (hd : E.ctx.heap.length ≤ E.depth) (nc : NoCircles ctx0.heap) (hw : Reach E w)
    (hx : IsA w o (.of .section)) :
    (AllYielded E w o → (run E o (.allElementsRequired b) w).1 = .ok .none) ∧
    (¬ AllYielded E w o → (run E o (.allElementsRequired b) w).1 = .error (.py .attributeError)) := by
  have V := envOk_load hl
  have I := hw.inv V
  have N := noFail_load ha hl hd (finite_load ha hl hd nc)
  have T := requires_section (b := b) V (w.objs.length + 1) o w I I.bounded hx hx.1 (by omega)
  have e : run E o (.allElementsRequired b) w = (do requireAll E (w.objs.length + 1) b o; pure Val.none) w := by
    unfold run
    rw [bind_ok obj_run, hx.2]
    rfl
  rw [e, bind_run]
  constructor
  · intro h
    obtain ⟨a, h⟩ := T.good N h
    generalize requireAll E (w.objs.length + 1) b o w = p at h
    obtain ⟨r, w2⟩ := p
    cases h
    rfl
  · intro h
    have h := T.bad N h
    generalize requireAll E (w.objs.length + 1) b o w = p at h
    obtain ⟨r, w2⟩ := p
    cases h
    rfl

/-- The sample has a section that was not yielded at the start. -/
example : ∃ E input ctx0 w o, analyze input = .ok ctx0 ∧ load input = .ok E.ctx ∧ E.ctx.heap.length ≤ E.depth ∧ NoCircles ctx0.heap ∧ Reach E w ∧ IsA w o (.of .section) ∧
    ¬ AllYielded E w o := by
  obtain ⟨c, ctx, a1, a2, h1, h2, h3, h4⟩ : ∃ c ctx, analyze sampleText = .ok c ∧ (c.heap.all fun x => !x.deepCopy) = true ∧ load sampleText = .ok ctx ∧
      ctx.heap.length ≤ 99 ∧ (instElements ctx.heap 99 0 []).toOption = some [1, 2, 3, 4, 5] ∧ (ctx.heap.at 5).type = .section := by
    refine ⟨_, _, rfl, ?_, rfl, ?_, ?_, ?_⟩ <;> decide +kernel
  have ok : ∀ {α} {x : Except PyExc α} {a : α}, x.toOption = some a → x = .ok a := fun {α x a} h => by cases x <;> cases h; rfl
  refine ⟨⟨{}, ctx, 99⟩, _, c, World.start, 0, a1, h1, h2, (noDeep a2).no_circle a1 h1, start_reach, start_section, fun h => ?_⟩
  obtain ⟨⟨y, hy⟩, _⟩ := h 0 _ .self rfl (ok h3) 5 (by decide) (.inl h4)
  obtain ⟨ys, h, _⟩ := hy.listed
  cases h

/-- Without sections and fieldsets it returns. -/
example : ∃ E input ctx0 w o, analyze input = .ok ctx0 ∧ load input = .ok E.ctx ∧ E.ctx.heap.length ≤ E.depth ∧ NoCircles ctx0.heap ∧ Reach E w ∧ IsA w o (.of .section) ∧
    AllYielded E w o := by
  obtain ⟨c, ctx, a1, a2, h1, h2, h3, h4⟩ : ∃ c ctx, analyze (chars!"a: 1\n") = .ok c ∧ (c.heap.all fun x => !x.deepCopy) = true ∧ load (chars!"a: 1\n") = .ok ctx ∧
      ctx.heap.length ≤ 9 ∧ (instElements ctx.heap 9 0 []).toOption = some [1] ∧ (ctx.heap.at 1).type = .field := by
    refine ⟨_, _, rfl, ?_, rfl, ?_, ?_, ?_⟩ <;> decide +kernel
  have ok : ∀ {α} {x : Except PyExc α} {a : α}, x.toOption = some a → x = .ok a := fun {α x a} h => by cases x <;> cases h; rfl
  refine ⟨⟨{}, ctx, 9⟩, _, c, World.start, 0, a1, h1, h2, (noDeep a2).no_circle a1 h1, start_reach, start_section, ?_⟩
  intro s xs hs hc hel i hi hg
  have : s = 0 := by
    cases hs with
    | self => rfl
    | made h hc' hch _ _ =>
      exfalso
      have : ∀ q, (World.start.at q).children = none := by
        intro q
        by_cases hq : q = 0
        · subst hq; rfl
        · rw [at_out (by change 1 ≤ q; omega)]; rfl
      rw [this] at hch; cases hch
  subst this
  have hel' : instElements ctx.heap 9 0 [] = .ok xs := hel
  rw [ok h3] at hel'
  cases hel'
  rw [List.mem_singleton.1 hi, h4] at hg
  rcases hg with hg | hg <;> cases hg

/-- What is made of an element when the flag of its section is set has it too, if it is a section or fieldset. -/
theorem C63_new {k : Kind} {z p : Nat} (hl : load input = .ok E.ctx) (hw : Reach E w) (hx : IsA w y .sectionElement) (hp : (w.at y).parent = some p) (hn : (w.at y).made k = none)
    (hr : run E y (.to k) w = (.ok (.obj z), w')) : (w'.at z).required = true ↔ (k = .section ∨ k = .fieldset) ∧ (w.at p).required = true := by
  have V := envOk_load hl
  have I := hw.inv V
  have e : run E y (.to k) w = (Val.obj <$> to E k y) w := by
    unfold run
    rw [bind_ok obj_run, hx.2]
  rw [e, map_run, to_run, hn] at hr
  dsimp only at hr
  split at hr
  · rename_i heq
    split at heq
    · cases heq
    · split at heq
      · cases heq
        cases hr
        have hne : w.objs.length ≠ y := by have := hx.1; omega
        unfold yieldedAs
        rw [at_assign_ne hne, hp]
        simp only [create, World.at]
        cases k <;> simp [Kind.new]
      · rw [validation_run] at heq
        obtain ⟨e, he⟩ := raised_is (unexpectedElementType E.o E.ctx none (w.at y).ref k.expected)
        rw [he] at heq
        cases heq
  · cases hr

/-- An element of the sample of which nothing was made, in a section whose flag is set. -/
example : ∃ E input w y p, load input = .ok E.ctx ∧ Reach E w ∧ IsA w y .sectionElement ∧ (w.at y).parent = some p ∧ (w.at p).required = true ∧ (w.at y).made .fieldset = none ∧
    gotObj (run E y (.to .fieldset) w).1 = some 2 := by
  obtain ⟨ctx, h1, h2⟩ : ∃ ctx, load (chars!"a:\n") = .ok ctx ∧ gotObj (run ⟨{}, ctx, 9⟩ 1 (.to .fieldset) (run ⟨{}, ctx, 9⟩ 0 (.many .any none) (run ⟨{}, ctx, 9⟩ 0 (.allElementsRequired true) World.start).2).2).1 = some 2 ∧
      1 < (run ⟨{}, ctx, 9⟩ 0 (.many .any none) (run ⟨{}, ctx, 9⟩ 0 (.allElementsRequired true) World.start).2).2.objs.length ∧
      ((run ⟨{}, ctx, 9⟩ 0 (.many .any none) (run ⟨{}, ctx, 9⟩ 0 (.allElementsRequired true) World.start).2).2.at 1).cls = .sectionElement ∧
      ((run ⟨{}, ctx, 9⟩ 0 (.many .any none) (run ⟨{}, ctx, 9⟩ 0 (.allElementsRequired true) World.start).2).2.at 1).parent = some 0 ∧
      ((run ⟨{}, ctx, 9⟩ 0 (.many .any none) (run ⟨{}, ctx, 9⟩ 0 (.allElementsRequired true) World.start).2).2.at 0).required = true ∧
      ((run ⟨{}, ctx, 9⟩ 0 (.many .any none) (run ⟨{}, ctx, 9⟩ 0 (.allElementsRequired true) World.start).2).2.at 1).made .fieldset = none := by
    refine ⟨_, rfl, ?_, ?_, ?_, ?_, ?_, ?_⟩ <;> decide +kernel
  obtain ⟨h2, h3, h4, h5, h6, h7⟩ := h2
  exact ⟨⟨{}, ctx, 9⟩, _, _, 1, 0, h1, ((Leads.one (m := .allElementsRequired true) trivial 0).trans (Leads.one (m := .many .any none) trivial 0)).reach, ⟨h3, h4⟩, h5, h6, h7, h2⟩

/-- `all_entries_required(b)` sets the flag of the fieldset and does nothing else. -/
theorem C63_fieldset {b : Bool} (hx : IsA w o (.of .fieldset)) :
    (run E o (.allEntriesRequired b) w).1 = .ok .none ∧ (run E o (.allEntriesRequired b) w).2.cache = w.cache ∧ (run E o (.allEntriesRequired b) w).2.objs.length = w.objs.length ∧
      (∀ q, q ≠ o → (run E o (.allEntriesRequired b) w).2.at q = w.at q) ∧ (run E o (.allEntriesRequired b) w).2.at o = { w.at o with required := b } := by
  have e : run E o (.allEntriesRequired b) w = (.ok .none, (assign o (fun x => { x with required := b }) w).2) := by
    unfold run
    rw [bind_ok obj_run, hx.2]
    rfl
  rw [e]
  exact ⟨rfl, rfl, len_assign, fun q hq => at_assign_ne hq, at_assign_self hx.1⟩

example : ∃ E input w o, load input = .ok E.ctx ∧ Reach E w ∧ IsA w o (.of .fieldset) ∧ (w.at o).required = false := by
  obtain ⟨ctx, h1, h2, h3⟩ : ∃ ctx, load (chars!"a:\nb = 1\n") = .ok ctx ∧
      (2 < (run ⟨{}, ctx, 9⟩ 0 (.one (.kind .fieldset) none none) World.start).2.objs.length ∧ ((run ⟨{}, ctx, 9⟩ 0 (.one (.kind .fieldset) none none) World.start).2.at 2).cls = .of .fieldset) ∧
      ((run ⟨{}, ctx, 9⟩ 0 (.one (.kind .fieldset) none none) World.start).2.at 2).required = false := by
    refine ⟨_, rfl, ?_, ?_⟩ <;> decide +kernel
  exact ⟨⟨{}, ctx, 9⟩, _, _, 2, h1, (Leads.one (m := .one (.kind .fieldset) none none) trivial 0).reach, h2, h3⟩

/-! ## C64 -/

/-- `parent()` of sections. The document raises `KeyError`, other sections return nothing. -/
theorem C64_section (hl : load input = .ok E.ctx) (hw : Reach E w) (hx : IsA w o (.of .section)) :
    ((w.at o).ref = .elem 0 → run E o .parent w = (.error (.py .keyError), w)) ∧ ((w.at o).ref ≠ .elem 0 → run E o .parent w = (.ok .none, w)) := by
  have V := envOk_load hl
  have I := hw.inv V
  have e : run E o .parent w = ((fun r => Val.opt (r.map .obj)) <$> sectionParent E o) w := by
    unfold run
    rw [bind_ok obj_run, hx.2]
  rw [e, map_run]
  unfold sectionParent
  rw [bind_ok obj_run]
  constructor
  · intro h
    have : E.ctx.heap.type (w.at o).ref = .document := by rw [h]; exact V.doc
    rw [this, if_neg (by simp), (I.objs o hx.1).top h]
    rfl
  · intro h
    have O := (I.objs o hx.1).ref
    rw [hx.2] at O
    have : E.ctx.heap.type (w.at o).ref ≠ .document := by
      cases hq : (w.at o).ref with
      | elem i =>
        rw [hq] at O h
        exact V.types i (Nat.pos_of_ne_zero fun e => h (by rw [e])) O.1
      | item i j => simp [Heap.type]
      | entry i j => simp [Heap.type]
    rw [if_pos this]
    rfl

/-- A section that is not the document. -/
example : ∃ E input w o, load input = .ok E.ctx ∧ Reach E w ∧ IsA w o (.of .section) ∧ (w.at o).ref ≠ .elem 0 := by
  obtain ⟨ctx, h1, h2, h3, h4⟩ : ∃ ctx, load (chars!"# s\n") = .ok ctx ∧ 2 < (run ⟨{}, ctx, 9⟩ 0 (.one (.kind .section) none none) World.start).2.objs.length ∧
      ((run ⟨{}, ctx, 9⟩ 0 (.one (.kind .section) none none) World.start).2.at 2).cls = .of .section ∧
      ((run ⟨{}, ctx, 9⟩ 0 (.one (.kind .section) none none) World.start).2.at 2).ref ≠ .elem 0 := by
    refine ⟨_, rfl, ?_, ?_, ?_⟩ <;> decide +kernel
  exact ⟨⟨{}, ctx, 9⟩, _, _, 2, h1, (Leads.one (m := .one (.kind .section) none none) trivial 0).reach, ⟨h2, h3⟩, h4⟩

theorem parent_call {k : Kind} (hk : k ≠ .section) (hc : (w.at o).cls = .of k ∨ (w.at o).cls = .entry ∨ (w.at o).cls = .item) :
    run E o .parent w = (Val.obj <$> parentOf E o) w := by
  unfold run
  rw [bind_ok obj_run]
  rcases hc with h2 | h | h
  · rw [h2]; cases k <;> first | rfl | exact absurd rfl hk
  · rw [h]
  · rw [h]

/-- `parent()` of everything else that has it returns the object that it was obtained from, if it was obtained from one: a fieldset for entries, a list for items,
otherwise a section. -/
theorem C64_other {p : Nat} (hl : load input = .ok E.ctx) (hw : Reach E w) (ho : o < w.objs.length)
    (hc : (∃ k, k ≠ .section ∧ (w.at o).cls = .of k) ∨ (w.at o).cls = .entry ∨ (w.at o).cls = .item) (hp : (w.at o).parent = some p) :
    run E o .parent w = (.ok (.obj p), w) ∧
      IsA w p (if (w.at o).cls = .entry then .of .fieldset else if (w.at o).cls = .item then .of .list else .of .section) := by
  have V := envOk_load hl
  have I := hw.inv V
  have P := (I.objs o ho).parent p hp
  refine ⟨?_, by omega, ?_⟩
  · have e : run E o .parent w = (Val.obj <$> parentOf E o) w := by
      rcases hc with ⟨k, h1, h2⟩ | h | h
      · exact parent_call h1 (.inl h2)
      · exact parent_call (k := .empty) (by simp) (.inr (.inl h))
      · exact parent_call (k := .empty) (by simp) (.inr (.inr h))
    rw [e, map_run]
    unfold parentOf
    rw [bind_ok obj_run, hp]
    rfl
  · rw [P.2]
    rcases hc with ⟨k, h1, h2⟩ | h | h
    · rw [h2]; cases k <;> rfl
    · rw [h]; rfl
    · rw [h]; rfl

/-- After `parse`, all objects but the document were obtained from one. -/
theorem C64_obtained (hl : load input = .ok E.ctx) (hw : AfterParse E w) (ho : o < w.objs.length) (h0 : o ≠ 0) : ∃ p, (w.at o).parent = some p := by
  have V := envOk_load hl
  cases hp : (w.at o).parent with
  | some p => exact ⟨p, rfl⟩
  | none => exact absurd (((hw.reach.inv V).objs o ho).orphan hp |>.2 (hw.root V).2.1) h0

/-- In what is made of the element that `lookup` returned, entries and items still have one; `parent()` of fields and empty elements without one raises an
`AttributeError`, and `parent()` of fieldsets and lists returns a new object for the section that they are in. -/
theorem C64_found (hl : load input = .ok E.ctx) (hw : Reach E w) (ho : o < w.objs.length) (hp : (w.at o).parent = none) :
    (w.at o).cls ≠ .entry ∧ (w.at o).cls ≠ .item ∧
    ((w.at o).cls = .of .field ∨ (w.at o).cls = .of .empty → run E o .parent w = (.error (.py .attributeError), w)) ∧
    ((w.at o).cls = .of .fieldset ∨ (w.at o).cls = .of .list →
      ∃ i s, (w.at o).ref = .elem i ∧ (E.ctx.heap.at i).parent = some s ∧ i ∈ (E.ctx.heap.at s).elements ∧
        (run E o .parent w).1 = .ok (.obj w.objs.length) ∧ (run E o .parent w).2 = ⟨w.objs ++ [{ cls := .of .section, ref := .elem s }], w.cache⟩) := by
  have V := envOk_load hl
  have I := hw.inv V
  have O := (I.objs o ho).orphan hp
  refine ⟨fun h => ?_, fun h => ?_, fun h => ?_, fun h => ?_⟩
  · rw [h] at O; simp at O
  · rw [h] at O; simp at O
  · have e : run E o .parent w = (Val.obj <$> parentOf E o) w := by
      rcases h with h | h <;> exact parent_call (by simp) (.inl h)
    rw [e, map_run]
    unfold parentOf
    rw [bind_ok obj_run, hp]
    rcases h with h | h <;> simp only [h] <;> rfl
  · have e : run E o .parent w = (Val.obj <$> parentOf E o) w := by
      rcases h with h | h <;> exact parent_call (by simp) (.inl h)
    obtain ⟨i, hi, h0, hlt⟩ : ∃ i, (w.at o).ref = .elem i ∧ 0 < i ∧ i < E.ctx.heap.length := by
      have R := (I.objs o ho).ref
      cases hr : (w.at o).ref with
      | elem i =>
        rw [hr] at R
        have h0 : 0 < i := by
          apply Nat.pos_of_ne_zero
          intro h0
          rcases h with h | h <;> rw [h] at R <;> cases R.2.1 h0
        exact ⟨i, rfl, h0, elem_lt I ho hr h0⟩
      | item i j => rcases h with h | h <;> rw [h, hr] at R <;> exact R.elim
      | entry i j => rcases h with h | h <;> rw [h, hr] at R <;> exact R.elim
    obtain ⟨s, hs, hs', _⟩ := V.parents i h0 hlt
    obtain ⟨_, _, S⟩ := loaded_all hl
    refine ⟨i, s, hi, hs, ?_, ?_, ?_⟩
    · rw [S.tree.els s hs']; simp [hlt, hs]
    all_goals
      rw [e, map_run]
      unfold parentOf
      rw [bind_ok obj_run, hp]
      simp only [h, if_true, hi]
      rw [show (E.ctx.heap.at (Ref.elem i).idx).parent = some s from hs]
      rfl

example : ∃ E input w o, load input = .ok E.ctx ∧ AfterParse E w ∧ Reach E w ∧ o ≠ 0 ∧ o < w.objs.length ∧ (∃ k, k ≠ .section ∧ (w.at o).cls = .of k) ∧ ∃ p, (w.at o).parent = some p := by
  obtain ⟨E, S⟩ := sample
  have ha : AfterParse E (sampleField E) := Leads.one (by exact trivial) 0
  exact ⟨E, _, sampleField E, 6, S.loaded, ha, field_reach, by decide, S.field.2, ⟨.field, by simp, S.field.1⟩, C64_obtained S.loaded ha S.field.2 (by decide)⟩

/-- `parent()` of what is made of the element that `lookup` returned: a list and a field. -/
example : ∃ ctx, load (chars!"# s\nl:\n- x\nf: 1\n") = .ok ctx ∧
    (match lookup ctx.input (some 1) (some 0) none with
      | .ok r => let w := (run ⟨{}, ctx, 99⟩ 0 (.to .list) (World.found r.element)).2
        some ((w.at 1).parent, (w.at 1).cls, gotObj (run ⟨{}, ctx, 99⟩ 1 .parent w).1, ((run ⟨{}, ctx, 99⟩ 1 .parent w).2.at 2).ref)
      | .error _ => none) = some (none, .of .list, some 2, .elem 1) ∧
    (match lookup ctx.input (some 3) (some 0) none with
      | .ok r => let w := (run ⟨{}, ctx, 99⟩ 0 (.to .field) (World.found r.element)).2
        some ((w.at 1).parent, (w.at 1).cls, gotObj (run ⟨{}, ctx, 99⟩ 1 .parent w).1)
      | .error _ => none) = some (none, .of .field, none) := by
  refine ⟨_, rfl, ?_⟩
  decide +kernel

/-! ## C65 -/

theorem touch_is : ∃ m : Api Unit, run E o .touch w = (do m; pure Val.none) w ∧ m = touch E (w.at o).cls o := by
  refine ⟨_, ?_, rfl⟩
  unfold run
  rw [bind_ok obj_run]

theorem touch_marks (V : EnvOk E) (I : Inv E w) (ho : o < w.objs.length) (hc : (w.at o).cls ≠ .sectionElement ∧ (w.at o).cls ≠ .element) :
    Touches E w (touch E (w.at o).cls o w) (fun w' q => Inside w' o q) (fun w' => Unrolled w' o) := by
  cases h : (w.at o).cls with
  | of k =>
    cases k with
    | «section» => exact touches_section V (w.objs.length + 1) o w I I.bounded ⟨ho, h⟩ ho (by omega)
    | fieldset => exact touches_fieldset V I ⟨ho, h⟩
    | list => exact touches_list I ⟨ho, h⟩
    | empty => exact touches_leaf I ho (by rw [h]; simp)
    | field => exact touches_leaf I ho (by rw [h]; simp)
  | sectionElement => exact absurd h hc.1
  | element => exact absurd h hc.2
  | entry => exact touches_leaf I ho (by rw [h]; simp)
  | item => exact touches_leaf I ho (by rw [h]; simp)

/-- `touch()`, if it returns, touches the object and what was made in it, with all items and entries, and nothing else. -/
theorem C65_touch (hl : load input = .ok E.ctx) (hw : Reach E w) (ho : o < w.objs.length) (hc : (w.at o).cls ≠ .sectionElement ∧ (w.at o).cls ≠ .element)
    (hr : run E o .touch w = (.ok .none, w')) : ∀ q, (w'.at q).touched = true ↔ (w.at q).touched = true ∨ Inside w' o q := by
  have V := envOk_load hl
  have T := touch_marks V (hw.inv V) ho hc
  obtain ⟨m, h1, rfl⟩ := touch_is (E := E) (o := o) (w := w)
  rw [h1, bind_run] at hr
  generalize touch E (w.at o).cls o w = p at hr T
  obtain ⟨r, w2⟩ := p
  cases r with
  | error e => cases hr
  | ok a => cases hr; exact T.marks ⟨_, rfl⟩

/-- The same for an element: it touches what was made of it, if anything was. -/
theorem C65_element (hl : load input = .ok E.ctx) (hw : Reach E w) (ho : o < w.objs.length) (hc : (w.at o).cls = .sectionElement ∨ (w.at o).cls = .element)
    (hr : run E o .touch w = (.ok .none, w')) : ∀ q, (w'.at q).touched = true ↔ (w.at q).touched = true ∨ ∃ k z, (w'.at o).made k = some z ∧ Inside w' z q := by
  have V := envOk_load hl
  have I := hw.inv V
  have T := touches_element V (deeper := touchSection E (w.objs.length + 1)) I ho fun y hy => by
    have M := ((I.objs o ho).made _ y hy).2
    exact touches_section V (w.objs.length + 1) y w I I.bounded ⟨M.known, M.cls⟩ M.known (by have := M.lt; omega)
  have e : touch E (w.at o).cls o w = touchElement E (touchSection E (w.objs.length + 1)) o w := by rcases hc with h | h <;> rw [h] <;> rfl
  obtain ⟨m, h1, rfl⟩ := touch_is (E := E) (o := o) (w := w)
  rw [h1, bind_run, e] at hr
  generalize touchElement E (touchSection E (w.objs.length + 1)) o w = p at hr T
  obtain ⟨r, w2⟩ := p
  cases r with
  | error e => cases hr
  | ok a => cases hr; exact T.marks ⟨_, rfl⟩

/-- Partial: documents in which a section is, in the end, merged with itself are left out (C73). `touch()` returns. -/
theorem C65_returns_partial (ha : analyze input = .ok ctx0) (hl : load input = .ok E.ctx) (hd : E.ctx.heap.length ≤ E.depth) (nc : NoCircles ctx0.heap) (hw : Reach E w)
    (ho : o < w.objs.length) : (run E o .touch w).1 = .ok .none := by
  have V := envOk_load hl
  have I := hw.inv V
  have N := noFail_load ha hl hd (finite_load ha hl hd nc)
  obtain ⟨a, h⟩ : ∃ a, (touch E (w.at o).cls o w).1 = .ok a := by
    by_cases hc : (w.at o).cls = .sectionElement ∨ (w.at o).cls = .element
    · have T := touches_element V (deeper := touchSection E (w.objs.length + 1)) I ho fun y hy => by
        have M := ((I.objs o ho).made _ y hy).2
        exact touches_section V (w.objs.length + 1) y w I I.bounded ⟨M.known, M.cls⟩ M.known (by have := M.lt; omega)
      have e : touch E (w.at o).cls o w = touchElement E (touchSection E (w.objs.length + 1)) o w := by rcases hc with h | h <;> rw [h] <;> rfl
      rw [e]
      exact T.total N
    · exact (touch_marks V I ho ⟨fun h => hc (.inl h), fun h => hc (.inr h)⟩).total N
  obtain ⟨m, h1, rfl⟩ := touch_is (E := E) (o := o) (w := w)
  rw [h1, bind_run]
  generalize touch E (w.at o).cls o w = p at h
  obtain ⟨r, w2⟩ := p
  cases h
  rfl

/-- The list of the sample. -/
example : ∃ E input ctx0 w o, analyze input = .ok ctx0 ∧ load input = .ok E.ctx ∧ E.ctx.heap.length ≤ E.depth ∧ NoCircles ctx0.heap ∧ Reach E w ∧ o < w.objs.length ∧
    (w.at o).cls = .of .list ∧ Items E (w.at o) [.item 4 0] := by
  obtain ⟨E, S⟩ := sample
  obtain ⟨c, hc, nd⟩ := sample_analyzed
  exact ⟨E, _, c, sampleList E, 6, hc, S.loaded, Nat.le_of_succ_le S.depth, nd.no_circle hc S.loaded, list_reach, S.list.2.1, S.list.1, S.list.2.2⟩

/-- An element of the sample of which a list was made. -/
example : ∃ E input w o, load input = .ok E.ctx ∧ Reach E w ∧ o < w.objs.length ∧ (w.at o).cls = .sectionElement ∧ (w.at o).yielded = some .list := by
  obtain ⟨E, S⟩ := sample
  exact ⟨E, _, sampleYielded E, 1, S.loaded, yielded_reach, S.yielded.2.2.2.2.2.1, S.yielded.2.1, S.yielded.2.2.2.2.1⟩

end Eno.El
