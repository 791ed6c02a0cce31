import Verif.Props.ElementReadProps

/-!
# More about C44 and C46: what is missing is called by its key, and fieldsets assert that their entries were touched
-/

namespace Eno.El

open Spec

variable {w w1 : World} {o : Nat} {E : Env} {input : Str} {rs : List Ref} {only skip : List Str}

/-- All entries of the fieldset with the keys in question were touched. -/
def EntriesUsed (E : Env) (w : World) (o : Nat) (only skip : List Str) (rs : List Ref) : Prop :=
  ∀ r ∈ rs, ∀ k, KeyIs E.ctx.heap r k → Concerns only skip k → ∃ ys, (w.at o).children = some ys ∧ ∀ y ∈ ys, (w.at y).ref = r → (w.at y).touched = true

/-- The first object of a list that is not touched. -/
def firstUntouched (w : World) : List Nat → Option Nat
  | [] => none
  | y :: ys => if (w.at y).touched then firstUntouched w ys else some y

theorem firstUntouched_run : ∀ zs : List Nat,
    firstSome (fun y => do let c ← obj y; pure (if c.touched then none else some y)) zs w = ((.ok (firstUntouched w zs) : Except Exc (Option Nat)), w)
  | [] => rfl
  | y :: ys => by
    have h : (do let c ← obj y; pure (if c.touched then none else some y) : Api (Option Nat)) w = (.ok (if (w.at y).touched then none else some y), w) := rfl
    unfold firstSome firstUntouched
    rw [bind_ok h]
    split
    · exact firstUntouched_run ys
    · rfl

theorem firstUntouched_none : ∀ {zs : List Nat}, firstUntouched w zs = none ↔ ∀ z ∈ zs, (w.at z).touched = true
  | [] => by simp [firstUntouched]
  | y :: ys => by
    unfold firstUntouched
    split
    · rename_i h; rw [firstUntouched_none]; simp [h]
    · rename_i h; simp [h]

theorem firstUntouched_some {y : Nat} : ∀ {zs : List Nat}, firstUntouched w zs = some y → y ∈ zs ∧ (w.at y).touched = false
  | [] => by simp [firstUntouched]
  | z :: zs => by
    unfold firstUntouched
    split
    · intro h; have := firstUntouched_some h; exact ⟨List.mem_cons_of_mem _ this.1, this.2⟩
    · rename_i h; intro e; cases e; exact ⟨List.mem_cons_self, by simpa using h⟩

/-- `assert_all_touched` of a fieldset. If all entries in question were touched, it returns. Otherwise it should raise a validation error, but raises a `TypeError` about the
way in which it reads the entry, after asking the function, if one was given, for a message about an untouched entry in question. -/
theorem C46_entries_refuted {msg : Option (MsgArg Nat)} (hl : load input = .ok E.ctx) (hw : Reach E w) (hx : IsA w o (.of .fieldset)) (hit : Entries E (w.at o) rs) :
    ∃ w1, (∀ p, p < w.objs.length → (w1.at p).touched = (w.at p).touched) ∧
      (EntriesUsed E w o only skip rs → run E o (.assertAllTouched msg only skip) w = (.ok .none, w1)) ∧
      (¬ EntriesUsed E w o only skip rs → ∃ y k, IsA w1 y .entry ∧ (w1.at y).parent = some o ∧ (w1.at y).touched = false ∧ (w1.at y).ref ∈ rs ∧
        KeyIs E.ctx.heap (w1.at y).ref k ∧ Concerns only skip k ∧
        run E o (.assertAllTouched msg only skip) w = match msg with
          | some (.fn f) => (match f y w1 with
            | (.ok _, w2) => (.error (.py .typeError), w2)
            | (.error e, w2) => (.error e, w2))
          | _ => (.error (.py .typeError), w1)) := by
  have V := envOk_load hl
  have I := hw.inv V
  obtain ⟨ys, w1, h, K, U, h1, h2, h3, h4⟩ := entries_found V I hx hit
  have hx1 := hx.later K.later
  have hc : (w1.at o).cls ≠ .of .list := by rw [hx1.2]; simp
  have key : ∀ y ∈ ys, KeyIs E.ctx.heap (w1.at y).ref (keyAt E w1 y) := fun y hy => by
    have R := (K.inv.objs y (h3 y hy).1).ref
    rw [(h3 y hy).2] at R
    unfold keyAt
    cases hr : (w1.at y).ref with
    | elem i => rw [hr] at R; exact R.elim
    | item i j => rw [hr] at R; exact R.elim
    | entry i j =>
      rw [hr] at R
      obtain ⟨x, hq⟩ := Option.isSome_iff_exists.1 R
      obtain ⟨k, hk⟩ := Option.isSome_iff_exists.1 (V.keys i j x hq)
      refine ⟨x, hq, ?_⟩
      simp [keyText, Heap.key?, hq, hk]
  have uniq : ∀ {r k k'}, r ∈ rs → KeyIs E.ctx.heap r k → KeyIs E.ctx.heap r k' → k = k' := fun {r k k'} hr a b => by
    rw [← h4] at hr
    obtain ⟨y, hy, rfl⟩ := List.mem_map.1 hr
    have R := (K.inv.objs y (h3 y hy).1).ref
    rw [(h3 y hy).2] at R
    cases hr : (w1.at y).ref with
    | elem i => rw [hr] at R; exact R.elim
    | item i j => rw [hr] at R; exact R.elim
    | entry i j =>
      rw [hr] at a b
      obtain ⟨x, a1, a2⟩ := a
      obtain ⟨x', b1, b2⟩ := b
      rw [a1] at b1; cases b1
      rw [a2] at b2; cases b2; rfl
  have e : ∀ zs, zs = ((w1.at o).index.filter fun p => !skipped only skip p.1).flatMap (·.2) →
      run E o (.assertAllTouched msg only skip) w = match firstUntouched w1 zs with
        | none => (.ok .none, w1)
        | some y => match msg with
          | some (.fn f) => (match f y w1 with
            | (.ok _, w2) => (.error (.py .typeError), w2)
            | (.error e, w2) => (.error e, w2))
          | _ => (.error (.py .typeError), w1) := by
    rintro _ rfl
    have e1 : run E o (.assertAllTouched msg only skip) w = (do assertEntriesTouched E o msg only skip; pure Val.none) w := by
      unfold run
      rw [bind_ok obj_run, hx.2]
    rw [e1, bind_run]
    unfold assertEntriesTouched
    rw [bind_ok h, bind_ok obj_run, bind_ok (firstUntouched_run _)]
    cases firstUntouched w1 (((w1.at o).index.filter fun p => !skipped only skip p.1).flatMap (·.2)) with
    | none => rfl
    | some y =>
      rcases msg with _ | _ | f
      · rfl
      · rfl
      · dsimp only
        rw [bind_run]
        rcases f y w1 with ⟨_ | _, _⟩ <;> rfl
  have e := e _ rfl
  have pairs : ∀ y, y ∈ ((w1.at o).index.filter fun p => !skipped only skip p.1).flatMap (·.2) ↔ y ∈ ys ∧ Concerns only skip (keyAt E w1 y) :=
    fun y => by rw [index_pairs h1 hc, concerns_iff]
  have used : EntriesUsed E w o only skip rs ↔ ∀ y ∈ ys, Concerns only skip (keyAt E w1 y) → (w1.at y).touched = true := by
    constructor
    · intro hu y hy hs
      obtain ⟨ys', hch, hall⟩ := hu (w1.at y).ref (by rw [← h4]; exact List.mem_map.2 ⟨y, hy, rfl⟩) _ (key y hy) hs
      have := ((K.later.obj o hx.1).children ys' hch).1
      rw [h2] at this; cases this
      have hlt := (((I.objs o hx.1).kids ys hch).members y hy).2.1
      have L := K.later.obj y hlt
      rw [(U.obj y hlt).1]
      exact hall y hy L.ref.symm
    · intro hu r hr k hk hs
      obtain ⟨y, hy, e'⟩ := List.mem_map.1 (by rw [h4]; exact hr : r ∈ ys.map fun y => (w1.at y).ref)
      have touched : ∀ y ∈ ys, (w1.at y).ref = r → (w1.at y).touched = true := fun y hy e' =>
        hu y hy (uniq (k' := keyAt E w1 y) hr hk (by rw [← e']; exact key y hy) ▸ hs)
      cases hch : (w.at o).children with
      | some ys' =>
        have := ((K.later.obj o hx.1).children ys' hch).1
        rw [h2] at this; cases this
        refine ⟨ys, rfl, fun z hz ez => ?_⟩
        have hlt := (((I.objs o hx.1).kids ys hch).members z hz).2.1
        rw [← (U.obj z hlt).1]
        exact touched z hz (by rw [(K.later.obj z hlt).ref]; exact ez)
      | none =>
        have := U.kids o hx.1 hch ys h2 y hy
        have t := touched y hy e'
        rw [(U.fresh y this).1] at t
        cases t
  refine ⟨w1, fun p hp => (U.obj p hp).1, fun hu => ?_, fun hu => ?_⟩
  · rw [e, firstUntouched_none.2 fun z hz => used.1 hu z ((pairs z).1 hz).1 ((pairs z).1 hz).2]
  · cases hf : firstUntouched w1 (((w1.at o).index.filter fun p => !skipped only skip p.1).flatMap (·.2)) with
    | none => exact absurd (used.2 fun y hy hs => firstUntouched_none.1 hf y ((pairs y).2 ⟨hy, hs⟩)) hu
    | some y =>
      obtain ⟨hy, ht⟩ := firstUntouched_some hf
      obtain ⟨hy, hs⟩ := (pairs y).1 hy
      refine ⟨y, _, h3 y hy, (h1.members y hy).2.2.2, ht, by rw [← h4]; exact List.mem_map.2 ⟨y, hy, rfl⟩, key y hy, hs, ?_⟩
      rw [e, hf]

/-- A fieldset with two entries of which one was read. -/
example : ∃ ctx, load (chars!"f:\na = 1\nb = 2\n") = .ok ctx ∧
    (let E : Env := ⟨{}, ctx, 99⟩
     let w := (run E 2 (.entry (some (chars!"a")) none) (run E 0 (.one (.kind .fieldset) none none) World.start).2).2
     let w2 := (run E 3 (.value false asText) w).2
     (w2.at 2).cls = .of .fieldset ∧ isNone (run E 2 (.assertAllTouched none [chars!"a"] []) w2).1 = true ∧ isNone (run E 2 (.assertAllTouched none [] [chars!"b"]) w2).1 = true ∧
       isNone (run E 2 (.assertAllTouched none [] []) w2).1 = false ∧ isValidation (run E 2 (.assertAllTouched none [] []) w2).1 = false) := by
  refine ⟨_, rfl, ?_⟩
  decide +kernel

/-! ## C44 -/

/-- What a missing object is called. -/
def calledMissing (want : Option Want) (key : Option Str) : Str :=
  chars!"<class Missing" ++
    (match want with
      | none => chars!"FieldsetEntry"
      | some .any => chars!"SectionElement"
      | some (.kind .empty) => chars!"Empty"
      | some (.kind .field) => chars!"Field"
      | some (.kind .fieldset) => chars!"Fieldset"
      | some (.kind .list) => chars!"List"
      | some (.kind .section) => chars!"Section") ++
    (if key = none ∨ key = some [] then [] else chars!" key=" ++ key.getD []) ++ chars!">"

theorem missingRepr_eq (x : Missing) : missingRepr x = calledMissing x.want x.key := by
  unfold missingRepr calledMissing
  rcases x.key with _ | _ | ⟨a, k⟩ <;> rcases x.want with _ | _ | k <;> first | rfl | (cases k <;> rfl)

/-- `repr` of missing objects tells what was asked for and the key, if one was given. -/
theorem C44_repr (E : Env) (x : Missing) (w : World) : runMissing E x .repr w = (.ok (.text (calledMissing x.want x.key)), w) := by
  rw [← missingRepr_eq]
  unfold runMissing
  generalize x.want = q
  rcases q with _ | _ | k <;> first | rfl | (cases k <;> rfl)

/-- A missing element can be made into any kind of missing element. It has the same key and is missing in the same place. -/
theorem C44_to (E : Env) (x : Missing) (w : World) (k : Kind) (hx : x.want = some .any) :
    ∃ x', runMissing E x (.to k) w = (.ok (.missing x'), w) ∧ x'.want = some (.kind k) ∧ x'.key = x.key ∧
      ((∃ s q, x = .under s q x.key ∧ x' = .under s (some (.kind k)) x.key) ∨ ∃ p q, x = .inside p q x.key ∧ x' = .inside p (some (.kind k)) x.key) := by
  refine ⟨x.as (.kind k), ?_, ?_⟩
  · unfold runMissing
    rw [hx]
    rfl
  · cases x with
    | under s q key => exact ⟨rfl, rfl, .inl ⟨s, q, rfl, rfl⟩⟩
    | inside p q key => exact ⟨rfl, rfl, .inr ⟨p, q, rfl, rfl⟩⟩

/-- What is asked of a missing section or fieldset without requiring it is missing too: what was asked for, with the key that was asked for. -/
theorem C44_inside (E : Env) (x : Missing) (w : World) (key : Option Str) :
    (x.want = some (.kind .section) → ∀ want, runMissing E x (.one want key none) w = (.ok (.missing (.inside x (some want) key)), w)) ∧
    (x.want = some (.kind .fieldset) → runMissing E x (.entry key none) w = (.ok (.missing (.inside x none key)), w)) := by
  refine ⟨fun h want => ?_, fun h => ?_⟩ <;> unfold runMissing <;> rw [h] <;> rfl

example : (Missing.inside (.under 0 (some (.kind .section)) (some (chars!"s"))) (some .any) (some (chars!"a"))).want = some .any ∧
    calledMissing (some (.kind .field)) (some (chars!"a")) = chars!"<class MissingField key=a>" := by decide

end Eno.El
