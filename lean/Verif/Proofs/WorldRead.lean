import Verif.Proofs.WorldAccess

/-! # Reading values, comments and keys through objects -/

namespace Eno.El

open Spec

variable {α β : Type} {w w' w1 : World} {o y i : Nat} {E : Env} {input : Str} {ctx0 : Ctx} {rs : List Ref}

theorem handled_run {m : Api α} {err : Str → Except PyExc ErrObj} : exceptValueError m (fun s => raiseValidation (err s)) w = handled err (m w) := by
  unfold exceptValueError handled
  generalize m w = r
  obtain ⟨a, b⟩ := r
  cases a with
  | ok a => rfl
  | error e => cases e <;> first | rfl | exact validation_run

theorem reading_run {m : Read α} {v : α} (h : (m w.cache).1 = .ok v) : reading m w = (.ok v, { w with cache := (m w.cache).2 }) := by
  unfold reading
  generalize m w.cache = r at h
  obtain ⟨a, b⟩ := r
  cases h
  rfl

theorem reading_error {m : Read α} {e : PyExc} (h : (m w.cache).1 = .error e) : reading m w = (.error (.py e), { w with cache := (m w.cache).2 }) := by
  unfold reading
  generalize m w.cache = r at h
  obtain ⟨a, b⟩ := r
  cases h
  rfl

/-- The value of a field, item or entry does not depend on what happened before. -/
theorem value_said (ha : analyze input = .ok ctx0) (hl : load input = .ok E.ctx) (hd : E.ctx.heap.length + 1 ≤ E.depth) (I : Inv E w) (ho : o < w.objs.length) (hv : HasValue (w.at o).cls) :
    ∃ v, AnswerOf input ctx0.heap (.value (w.at o).ref) (.text v) ∧ ∀ c, Honest E.ctx.input E.ctx.heap c → (readValue E.ctx.input E.ctx.heap E.depth (w.at o).ref c).1 = .ok v := by
  have L := loaded ha hl
  obtain ⟨c, hc', r, _, hlen⟩ := load_ok_analyze hl
  rw [ha] at hc'; injection hc' with hc'; subst hc'
  have hin : E.ctx.input = input := (loaded_all hl).2.1
  rw [hin]
  have O := (I.objs o ho).ref
  have sub : ∀ r x, (∀ i, r ≠ .elem i) → E.ctx.heap.sub? r = some x → ∃ v, AnswerOf input ctx0.heap (.value r) (.text v) ∧
      ∀ c, Honest input E.ctx.heap c → (readValue input E.ctx.heap E.depth r c).1 = .ok v := fun r x hr hx => by
    rw [L.non.sub_eq] at hx
    refine ⟨_, .subValue hx, fun c hc => ?_⟩
    obtain ⟨d, hd⟩ : ∃ d, E.depth = d + 1 := ⟨E.depth - 1, by omega⟩
    obtain ⟨_, h, _⟩ := readValue_sub (input := input) L.non r hr d .empty coherent_empty
    rw [hd, readValue_same (d + 1) hc honest_empty, h]
    unfold subValue
    rw [hx]
    rfl
  rcases hv with h | h | h
  · rw [h] at O
    cases hr : (w.at o).ref with
    | item i k => rw [hr] at O; exact O.elim
    | entry i k => rw [hr] at O; exact O.elim
    | elem i =>
      rw [hr] at O
      obtain ⟨h1, h2, h3⟩ := O
      have hp : 0 < i := by
        apply Classical.byContradiction
        intro hn
        have := h2 (by omega)
        cases this
      have hs : (ctx0.heap.at i).type ≠ .section := fun hs => by
        have := h3 hp
        rw [L.secType i (by omega) hs] at this
        cases this
      have hi : i < ctx0.heap.length := by omega
      obtain ⟨n, hn, gn⟩ := (L.non.grounded i hi hs).bounded hi
      obtain ⟨v, hv⟩ := (L.non.grounded i hi hs).value (input := input)
      refine ⟨v, .value hv, fun c hc => ?_⟩
      obtain ⟨_, h, _⟩ := readValue_spec (input := input) L.non n i E.depth gn (by omega) hi hs v hv .empty coherent_empty
      rw [readValue_same E.depth hc honest_empty, h]
  · rw [h] at O
    cases hr : (w.at o).ref with
    | elem i => rw [hr] at O; exact O.elim
    | item i k => rw [hr] at O; exact O.elim
    | entry i k =>
      rw [hr] at O
      obtain ⟨x, hx⟩ := Option.isSome_iff_exists.1 O
      exact sub _ x (by simp) hx
  · rw [h] at O
    cases hr : (w.at o).ref with
    | elem i => rw [hr] at O; exact O.elim
    | entry i k => rw [hr] at O; exact O.elim
    | item i k =>
      rw [hr] at O
      obtain ⟨x, hx⟩ := Option.isSome_iff_exists.1 O
      exact sub _ x (by simp) hx

/-- Reading a value. -/
theorem value_run {v : Option Str} (V : EnvOk E) (I : Inv E w) (hv : ∀ c, Honest E.ctx.input E.ctx.heap c → (readValue E.ctx.input E.ctx.heap E.depth (w.at o).ref c).1 = .ok v) :
    ∃ w1, w1.objs = markTouched w o ∧ (Honest E.ctx.input E.ctx.heap w1.cache ∧ Asked E w1.cache) ∧ ∀ {α} (required : Bool) (f : Str → Api α), value E o required f w = match v with
      | none => if required then (raised (missingValue E.o E.ctx (w.at o).ref), w1) else (.ok none, w1)
      | some t => match handled (fun m => valueError E.o E.ctx m (w.at o).ref) (f t w1) with
        | (.ok a, w2) => (.ok (some a), w2)
        | (.error e, w2) => (.error e, w2) := by
  have hr : ((setTouched o w).2.at o).ref = (w.at o).ref := by rw [at_touched]; split <;> rfl
  have hread : reading (readValue E.ctx.input E.ctx.heap E.depth (w.at o).ref) (setTouched o w).2 = (.ok v, _) := reading_run (hv _ I.cache)
  refine ⟨{ objs := (setTouched o w).2.objs, cache := (readValue E.ctx.input E.ctx.heap E.depth (w.at o).ref (setTouched o w).2.cache).2 }, rfl, ⟨readValue_fresh V.values _ I.cache, .value _ I.asked⟩, fun required f => ?_⟩
  · unfold value
    rw [bind_ok (m := setTouched o) (a := ()) (w' := (setTouched o w).2) rfl]
    have hvo : valueOf E o (setTouched o w).2 = reading (readValue E.ctx.input E.ctx.heap E.depth (w.at o).ref) (setTouched o w).2 := by
      unfold valueOf
      rw [bind_ok obj_run, hr]
    rw [hread] at hvo
    rw [bind_ok hvo, bind_ok obj_run]
    have hr2 : ∀ c : Cache, (World.at { (setTouched o w).2 with cache := c } o).ref = (w.at o).ref := fun _ => hr
    rw [hr2]
    cases v with
    | none =>
      cases required
      · rfl
      · exact validation_run
    | some t => 
      dsimp only
      rw [map_run, handled_run]
      generalize handled _ _ = r
      obtain ⟨a, b⟩ := r
      cases a <;> rfl

/-! ## Comments and keys -/

theorem comment_said (ha : analyze input = .ok ctx0) (hl : load input = .ok E.ctx) {r : Ref} (hr : Readable (E.ctx.heap.comments r)) (c : Cache)
    (hc : Honest E.ctx.input E.ctx.heap c) : (readComment E.ctx.heap r c).1 = .ok (Spec.commentOf (E.ctx.heap.comments r)) := by
  rw [readComment_same hc]
  cases h : E.ctx.heap.comments r with
  | none => rfl
  | some cs => rw [computeComment_eq ((loaded ha hl).readable r cs h) (fun x e => hr x (by rw [h, e]))]; rfl

/-- Reading a comment. -/
theorem comment_run {v : Option Str} (I : Inv E w) (hv : ∀ c, Honest E.ctx.input E.ctx.heap c → (readComment E.ctx.heap (w.at o).ref c).1 = .ok v) :
    ∃ w1, w1.objs = markTouched w o ∧ ∀ {α} (required : Bool) (f : Str → Api α), comment E o required f w = match v with
      | none | some [] => if required then (raised (missingComment E.o E.ctx (w.at o).ref), w1) else (.ok none, w1)
      | some t => match handled (fun m => commentError E.o E.ctx m (w.at o).ref) (f t w1) with
        | (.ok a, w2) => (.ok (some a), w2)
        | (.error e, w2) => (.error e, w2) := by
  have hr : ((setTouched o w).2.at o).ref = (w.at o).ref := by rw [at_touched]; split <;> rfl
  have hread : reading (readComment E.ctx.heap (w.at o).ref) (setTouched o w).2 = (.ok v, _) := reading_run (hv _ I.cache)
  refine ⟨{ objs := (setTouched o w).2.objs, cache := (readComment E.ctx.heap (w.at o).ref (setTouched o w).2.cache).2 }, rfl, fun required f => ?_⟩
  unfold comment
  rw [bind_ok (m := setTouched o) (a := ()) (w' := (setTouched o w).2) rfl]
  have hvo : commentOf E o (setTouched o w).2 = reading (readComment E.ctx.heap (w.at o).ref) (setTouched o w).2 := by
    unfold commentOf
    rw [bind_ok obj_run, hr]
  rw [hread] at hvo
  rw [bind_ok hvo, bind_ok obj_run]
  have hr2 : ∀ c : Cache, (World.at { (setTouched o w).2 with cache := c } o).ref = (w.at o).ref := fun _ => hr
  rw [hr2]
  rcases v with _ | _ | ⟨a, t⟩
  · cases required
    · rfl
    · exact validation_run
  · cases required
    · rfl
    · exact validation_run
  · dsimp only
    rw [map_run, handled_run]
    generalize handled _ _ = r
    obtain ⟨a, b⟩ := r
    cases a <;> rfl

/-- Objects are made of elements that are there. -/
theorem elem_lt {i : Nat} (I : Inv E w) (ho : o < w.objs.length) (hr : (w.at o).ref = .elem i) (h0 : 0 < i) : i < E.ctx.heap.length := by
  have O := (I.objs o ho).ref
  rw [hr] at O
  cases hc : (w.at o).cls <;> rw [hc] at O
  · exact O.1
  · exact O.2
  · rcases O with O | ⟨O, _⟩
    · exact O.2
    · cases O; cases h0
  · exact O.elim
  · exact O.elim

/-- Reading a key. -/
theorem key_run {k : Str} (V : EnvOk E) (I : Inv E w) (ho : o < w.objs.length) (hk : KeyIs E.ctx.heap (w.at o).ref k) (f : Str → Api α) :
    key E o f w = handled (fun m => keyError E.o E.ctx m (w.at o).ref) (f k { w with objs := markTouched w o }) := by
  have hr : ((setTouched o w).2.at o).ref = (w.at o).ref := by rw [at_touched]; split <;> rfl
  unfold key
  rw [bind_ok (m := setTouched o) (a := ()) (w' := (setTouched o w).2) rfl, bind_ok obj_run, handled_run, hr]
  have : keyOf E o (setTouched o w).2 = (.ok k, (setTouched o w).2) := by
    unfold keyOf
    rw [bind_ok obj_run, hr]
    cases hq : (w.at o).ref with
    | elem i =>
      rw [hq] at hk
      obtain ⟨h1, rfl⟩ := hk
      have hi : i < E.ctx.heap.length := elem_lt I ho hq h1
      have : E.ctx.heap.key? (.elem i) = some (E.ctx.heap.at i).key := if_neg (V.types i h1 hi)
      dsimp only
      rw [this]
      rfl
    | item i j => rw [hq] at hk; rw [show k = _ from hk]; rfl
    | entry i j =>
      rw [hq] at hk
      obtain ⟨x, h1, h2⟩ := hk
      have : E.ctx.heap.key? (.entry i j) = some k := by unfold Heap.key?; dsimp only; rw [h1]; exact h2
      dsimp only
      rw [this]
      rfl
  rw [bind_ok this]
  rfl

theorem key_there (V : EnvOk E) (I : Inv E w) (ho : o < w.objs.length) (h0 : (w.at o).ref ≠ .elem 0) : ∃ k, KeyIs E.ctx.heap (w.at o).ref k := by
  have O := (I.objs o ho).ref
  cases hq : (w.at o).ref with
  | elem i => exact ⟨_, by rw [hq] at h0; exact Nat.pos_of_ne_zero fun e => h0 (by rw [e]), rfl⟩
  | item i j => exact ⟨_, rfl⟩
  | entry i j =>
    rw [hq] at O
    have : (E.ctx.heap.sub? (.entry i j)).isSome := by
      cases hc : (w.at o).cls <;> rw [hc] at O
      · exact O.elim
      · exact O.elim
      · rcases O with O | ⟨O, _⟩
        · exact O
        · cases O
      · exact O
      · exact O.elim
    obtain ⟨x, hx⟩ := Option.isSome_iff_exists.1 this
    obtain ⟨k, hk⟩ := Option.isSome_iff_exists.1 (V.keys i j x hx)
    exact ⟨k, x, hx, hk⟩

/-! ## Items and entries -/

theorem items_found (I : Inv E w) (hx : IsA w o (.of .list)) (hit : Items E (w.at o) rs) :
    ∃ ys w1, listItems E o w = (.ok ys, w1) ∧ Keeps E w w1 ∧ Unfolded w w1 ∧ KidsOk E w1 o ys ∧ (w1.at o).children = some ys ∧
      (∀ y ∈ ys, IsA w1 y .item) ∧ ys.map (fun y => (w1.at y).ref) = rs := by
  have K := (listItems_keeps I hx).1
  have U := listItems_unfolded (E := E) hx.1
  obtain ⟨ys, w1, h⟩ : ∃ ys w1, listItems E o w = (.ok ys, w1) := by
    rw [listItems_run, hit]
    cases (w.at o).children with
    | some ys => exact ⟨_, _, rfl⟩
    | none => exact ⟨_, _, rfl⟩
  obtain ⟨h1, h2⟩ := (listItems_keeps I hx).2 ys w1 h
  rw [h] at K U
  have hc := (hx.later K.later).2
  refine ⟨ys, w1, h, K, U, h2, h1, fun y hy => ?_, ?_⟩
  · have := h2.members y hy
    rw [hc] at this
    exact ⟨this.2.1, this.2.2.1⟩
  · have := h2.refs
    unfold ChildRefs at this
    rw [hc] at this
    dsimp only at this
    rw [(K.later.obj o hx.1).ref] at this
    exact Except.ok.inj (this.symm.trans hit)

theorem entries_found (V : EnvOk E) (I : Inv E w) (hx : IsA w o (.of .fieldset)) (hit : Entries E (w.at o) rs) :
    ∃ ys w1, fieldsetEntries E o w = (.ok ys, w1) ∧ Keeps E w w1 ∧ Unfolded w w1 ∧ KidsOk E w1 o ys ∧ (w1.at o).children = some ys ∧
      (∀ y ∈ ys, IsA w1 y .entry) ∧ ys.map (fun y => (w1.at y).ref) = rs := by
  have K := (fieldsetEntries_keeps V I hx).1
  have U := fieldsetEntries_unfolded V I hx
  obtain ⟨made, hit⟩ := hit
  obtain ⟨ys, w1, h⟩ : ∃ ys w1, fieldsetEntries E o w = (.ok ys, w1) := by
    rw [fieldsetEntries_run, hit]
    cases (w.at o).children with
    | some ys => exact ⟨_, _, rfl⟩
    | none => exact ⟨_, _, rfl⟩
  obtain ⟨h1, h2⟩ := (fieldsetEntries_keeps V I hx).2 ys w1 h
  rw [h] at K U
  have hc := (hx.later K.later).2
  refine ⟨ys, w1, h, K, U, h2, h1, fun y hy => ?_, ?_⟩
  · have := h2.members y hy
    rw [hc] at this
    exact ⟨this.2.1, this.2.2.1⟩
  · have := h2.refs
    unfold ChildRefs at this
    rw [hc] at this
    dsimp only at this
    rw [(K.later.obj o hx.1).ref] at this
    obtain ⟨m, this⟩ := this
    exact (Prod.mk.inj (Except.ok.inj (this.symm.trans hit))).2

/-! ## Values of lists -/

/-- A loader that does not use the elements. -/
def plainLoader (f : Str → Except Exc Val) : Loader := fun t w => (f t, w)

theorem each_values {f : Str → Except Exc Val} {required : Bool} (ha : analyze input = .ok ctx0) (hl : load input = .ok E.ctx) (hd : E.ctx.heap.length + 1 ≤ E.depth) :
    ∀ (ys : List Nat) (w : World), Inv E w → (∀ y ∈ ys, y < w.objs.length ∧ HasValue (w.at y).cls) →
      ∃ ps : List (Ref × Option Str), ps.map (·.1) = ys.map (fun y => (w.at y).ref) ∧ (∀ p ∈ ps, AnswerOf input ctx0.heap (.value p.1) (.text p.2)) ∧
        ((each (fun y => value E y required (plainLoader f)) ys w).1.map fun vs => vs.map Val.opt) = outcomes E required f ps
  | [], w, _, _ => ⟨[], rfl, by simp, rfl⟩
  | y :: ys, w, I, hy => by
    have V := envOk_load hl
    obtain ⟨v, h1, h2⟩ := value_said ha hl hd I (hy y (by simp)).1 (hy y (by simp)).2
    obtain ⟨w1, h3, h4, h5⟩ := value_run V I h2
    have K : Keeps E w w1 := by
      have := (keeps_touched (o := y) I).trans (keeps_cache (keeps_touched (o := y) I).inv h4.1 h4.2)
      have e : ({ (setTouched y w).2 with cache := w1.cache } : World) = w1 := by
        obtain ⟨a, b⟩ := w1
        cases h3
        rfl
      rw [e] at this
      exact this
    obtain ⟨ps, p1, p2, p3⟩ := each_values (f := f) (required := required) ha hl hd ys w1 K.inv (fun z hz => by
      obtain ⟨a, b⟩ := hy z (List.mem_cons_of_mem _ hz)
      exact ⟨Nat.lt_of_lt_of_le a K.later.len, by rw [(K.later.obj z a).cls]; exact b⟩)
    refine ⟨((w.at y).ref, v) :: ps, ?_, ?_, ?_⟩
    · rw [List.map_cons, List.map_cons, p1]
      congr 1
      exact List.map_congr_left fun z hz => (K.later.obj z (hy z (List.mem_cons_of_mem _ hz)).1).ref
    · intro p hp
      rcases List.mem_cons.1 hp with rfl | hp
      · exact h1
      · exact p2 p hp
    · have cons : each (fun y => value E y required (plainLoader f)) (y :: ys) = (do
          let b ← value E y required (plainLoader f)
          let bs ← each (fun y => value E y required (plainLoader f)) ys
          pure (b :: bs)) := rfl
      rw [cons, bind_run, h5]
      unfold outcomes
      cases v with
      | none =>
        dsimp only [outcome]
        cases required with
        | true =>
          simp only [if_true]
          obtain ⟨e, he⟩ := raised_is (missingValue E.o E.ctx (w.at y).ref)
          rw [he, he]; rfl
        | false =>
          rw [if_neg (by simp), if_neg (by simp)]
          dsimp only
          rw [bind_run, ← p3]
          generalize each _ ys w1 = q
          obtain ⟨a, b⟩ := q
          cases a <;> rfl
      | some t =>
        dsimp only [outcome, plainLoader]
        cases hf : f t with
        | ok a =>
          dsimp only [handled]
          rw [bind_run, ← p3]
          unfold plainLoader
          generalize each _ ys w1 = q
          obtain ⟨a, b⟩ := q
          cases a <;> rfl
        | error e =>
          cases e with
          | valueError m =>
            dsimp only [handled]
            obtain ⟨e, he⟩ := raised_is (valueError E.o E.ctx m (w.at y).ref)
            rw [he]; rfl
          | _ => rfl

end Eno.El
