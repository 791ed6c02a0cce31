import Verif.Proofs.WorldRead

/-! # What `assert_all_touched` finds -/

namespace Eno.El

open Spec

variable {α β : Type} {w w' w1 : World} {o y i : Nat} {E : Env} {input : Str} {ctx0 : Ctx} {rs : List Ref} {xs : List Nat} {only skip : List Str}

theorem pair_addTo {m : List (Str × List Nat)} {k k' : Str} {o x : Nat} :
    (∃ p ∈ addTo m k o, p.1 = k' ∧ x ∈ p.2) ↔ (∃ p ∈ m, p.1 = k' ∧ x ∈ p.2) ∨ (k' = k ∧ x = o) := by
  unfold addTo
  split
  · rename_i h
    constructor
    · rintro ⟨q, hq, rfl, hx⟩
      obtain ⟨p, hp, rfl⟩ := List.mem_map.1 hq
      split at hx
      · rename_i e
        rw [if_pos e]
        rcases List.mem_append.1 hx with hx | hx
        · exact .inl ⟨p, hp, rfl, hx⟩
        · exact .inr ⟨e, by simpa using hx⟩
      · rename_i e
        rw [if_neg e]
        exact .inl ⟨p, hp, rfl, hx⟩
    · rintro (⟨p, hp, rfl, hx⟩ | ⟨rfl, rfl⟩)
      · refine ⟨_, List.mem_map.2 ⟨p, hp, rfl⟩, ?_⟩
        split
        · exact ⟨rfl, List.mem_append_left _ hx⟩
        · exact ⟨rfl, hx⟩
      · obtain ⟨b, hb⟩ := Option.isSome_iff_exists.1 h
        have hp : (k', b) ∈ m := by
          clear h
          induction m with
          | nil => cases hb
          | cons p m ih =>
            obtain ⟨c, d⟩ := p
            rw [List.lookup_cons] at hb
            by_cases e : k' = c
            · subst e; simp at hb; subst hb; simp
            · simp only [beq_false_of_ne e] at hb; exact List.mem_cons_of_mem _ (ih hb)
        exact ⟨_, List.mem_map.2 ⟨_, hp, rfl⟩, by simp⟩
  · constructor
    · rintro ⟨q, hq, rfl, hx⟩
      rcases List.mem_append.1 hq with hq | hq
      · exact .inl ⟨q, hq, rfl, hx⟩
      · have : q = (k, [o]) := by simpa using hq
        subst this
        exact .inr ⟨rfl, by simpa using hx⟩
    · rintro (⟨p, hp, rfl, hx⟩ | ⟨rfl, rfl⟩)
      · exact ⟨p, List.mem_append_left _ hp, rfl, hx⟩
      · exact ⟨(k', [x]), by simp, rfl, by simp⟩

theorem pair_indexOf {kos : List (Str × Nat)} {k : Str} {x : Nat} : (∃ p ∈ indexOf kos, p.1 = k ∧ x ∈ p.2) ↔ (k, x) ∈ kos := by
  suffices h : ∀ kos : List (Str × Nat), (∃ p ∈ indexOf kos.reverse, p.1 = k ∧ x ∈ p.2) ↔ (k, x) ∈ kos.reverse by simpa using h kos.reverse
  intro kos
  induction kos with
  | nil => simp [indexOf]
  | cons p kos ih =>
    obtain ⟨a, b⟩ := p
    rw [List.reverse_cons, indexOf_snoc, pair_addTo, ih]
    simp

/-- The elements that `assert_all_touched` looks at are those with the keys it is asked for. -/
theorem index_pairs {ys : List Nat} (K : KidsOk E w o ys) (hc : (w.at o).cls ≠ .of .list) :
    y ∈ ((w.at o).index.filter fun p => !skipped only skip p.1).flatMap (·.2) ↔ y ∈ ys ∧ skipped only skip (keyAt E w y) = false := by
  obtain ⟨zs, h1, h2⟩ := K.index hc
  have same : ∀ z, z ∈ zs ↔ z ∈ ys := fun z => by
    have h5 : z ∈ zs.filter (fun q => keyAt E w q = keyAt E w z) ↔ z ∈ ys.filter (fun q => keyAt E w q = keyAt E w z) := by rw [h2]
    simpa using h5
  have hp : ∀ k x, (∃ p ∈ (w.at o).index, p.1 = k ∧ x ∈ p.2) ↔ x ∈ ys ∧ keyAt E w x = k := fun k x => by
    rw [h1, pair_indexOf, List.mem_map]
    constructor
    · rintro ⟨z, hz, e⟩
      cases e
      exact ⟨(same _).1 hz, rfl⟩
    · rintro ⟨hz, rfl⟩
      exact ⟨x, (same _).2 hz, rfl⟩
  rw [List.mem_flatMap]
  constructor
  · rintro ⟨p, hm, hy⟩
    obtain ⟨hm, hs⟩ := List.mem_filter.1 hm
    obtain ⟨h3, h4⟩ := (hp p.1 y).1 ⟨p, hm, rfl, hy⟩
    exact ⟨h3, by rw [h4]; simpa using hs⟩
  · rintro ⟨hy, hs⟩
    obtain ⟨p, hm, h3, h4⟩ := (hp _ y).2 ⟨hy, rfl⟩
    exact ⟨p, List.mem_filter.2 ⟨hm, by rw [h3, hs]; rfl⟩, h4⟩

theorem complaint_run {m : Option (MsgArg Nat)} {r : Ref} : (do
    let message ← (match m with
      | none => pure none
      | some (.text s) => pure (some s)
      | some (.fn f) => do
        let y ← create [{ cls := .element, ref := r, parent := some o }]
        some <$> f (y.headD 0))
    raiseValidation (unexpectedElement E.o E.ctx message r)) w = complaint E o m r w := by
  rcases m with _ | (s | f)
  · exact validation_run
  · exact validation_run
  · change (do
      let message ← (do
        let y ← create [{ cls := .element, ref := r, parent := some o }]
        some <$> f (y.headD 0))
      raiseValidation (unexpectedElement E.o E.ctx message r)) w = _
    rw [bind_run, bind_ok (m := create [{ cls := .element, ref := r, parent := some o }]) (a := [w.objs.length])
      (w' := { w with objs := w.objs ++ [{ cls := .element, ref := r, parent := some o }] }) rfl, map_run]
    unfold complaint
    dsimp only [List.headD_cons]
    generalize f w.objs.length _ = q
    obtain ⟨a, b⟩ := q
    cases a with
    | error e => rfl
    | ok s => exact validation_run

/-- The part of `assert_all_touched` that does not depend on the message. -/
theorem assert_found (V : EnvOk E) (I : Inv E w) (hx : IsA w o (.of .section)) (hel : Elements E (w.at o) xs) :
    ∃ (res : Except Exc (Option Ref)) (w1 : World), Keeps E w w1 ∧ Unfolded w w1 ∧ (NoFail E → ∃ a, res = .ok a) ∧
      (∀ m, assertAllTouched E o m only skip w = match res with
        | .error e => (.error e, w1)
        | .ok none => (.ok (), w1)
        | .ok (some r) => complaint E o m r w1) ∧
      (res = .ok none → AllUsed E w o only skip xs) ∧
      (∀ r, res = .ok (some r) → ¬ AllUsed E w o only skip xs ∧ ∃ i z, i ∈ xs ∧ Concerns only skip (E.ctx.heap.at i).key ∧ ObjectFor w1 o i z ∧ UnusedElement w1 z r) := by
  obtain ⟨ys, w0, h, K, U, h1, h2, h3, h4⟩ := elements_found V I hx hel
  have hx0 := hx.later K.later
  have hc : (w0.at o).cls ≠ .of .list := by rw [hx0.2]; simp
  have S := assert_search V K.inv (zs := ((w0.at o).index.filter fun p => !skipped only skip p.1).flatMap (·.2)) fun z hz => h3 z (index_mem h1 hc hz)
  generalize hp : firstSome (untouchedElement E (untouchedSection E (w0.objs.length + 1))) (((w0.at o).index.filter fun p => !skipped only skip p.1).flatMap (·.2)) w0 = p at S
  obtain ⟨res, w1⟩ := p
  have U1 := U.trans S.unf
  have K1 : Keeps E w w1 := K.trans ⟨S.inv, S.unf.later⟩
  -- an element of the list, with its object
  have obj : ∀ i ∈ xs, ∃ z ∈ ys, (w0.at z).ref = .elem i := fun i hi => by
    have : Ref.elem i ∈ ys.map fun y => (w0.at y).ref := by rw [h4]; exact List.mem_map.2 ⟨i, hi, rfl⟩
    obtain ⟨z, hz, e⟩ := List.mem_map.1 this
    exact ⟨z, hz, e⟩
  have elem : ∀ z ∈ ys, ∃ i ∈ xs, (w0.at z).ref = .elem i := fun z hz => by
    have : (w0.at z).ref ∈ xs.map Ref.elem := by rw [← h4]; exact List.mem_map.2 ⟨z, hz, rfl⟩
    obtain ⟨i, hi, e⟩ := List.mem_map.1 this
    exact ⟨i, hi, e.symm⟩
  have objFor : ∀ z ∈ ys, ∀ i, (w0.at z).ref = .elem i → ObjectFor w0 o i z := fun z hz i e => ⟨⟨ys, h2, hz⟩, h3 z hz, e, (h1.members z hz).2.2.2⟩
  have keyed : ∀ z i, (w0.at z).ref = .elem i → keyAt E w0 z = (E.ctx.heap.at i).key := fun z i e => by unfold keyAt; rw [e]; rfl
  -- objects that were there before
  have old : ∀ z ∈ ys, (∃ k y, (w1.at z).made k = some y) → ∃ ys', (w.at o).children = some ys' ∧ ys' = ys ∧ z < w.objs.length := fun z hz ⟨k, y, hm⟩ => by
    cases hch : (w.at o).children with
    | some ys' =>
      have := ((K.later.obj o hx.1).children ys' hch).1
      rw [h2] at this; cases this
      exact ⟨ys, rfl, rfl, (((I.objs o hx.1).kids ys hch).members z hz).2.1⟩
    | none =>
      have := U1.kids o hx.1 hch ys ((S.unf.later.obj o hx0.1).children ys h2).1 z hz
      rw [(U1.fresh z this).2] at hm; cases hm
  refine ⟨res, w1, K1, U1, S.total, fun m => ?_, fun e => ?_, fun r e => ?_⟩
  · unfold assertAllTouched
    rw [bind_ok h, bind_ok obj_run, bind_ok (m := objectCount) (w := w0) (w' := w0) (a := w0.objs.length) rfl, bind_run, hp]
    cases res with
    | error e => rfl
    | ok a => cases a with
      | none => rfl
      | some r =>
        exact complaint_run
  · have hu := S.clean e
    intro i hi hs
    rw [concerns_iff] at hs
    have used : ∀ z ∈ ys, (w0.at z).ref = .elem i → z < w.objs.length ∧ (w.at o).children = some ys ∧ UsedElement E w z := fun z hz e => by
      have hz' := hu z ((index_pairs h1 hc).2 ⟨hz, by rw [keyed z i e]; exact hs⟩)
      obtain ⟨k, y, hm, _⟩ := id hz'
      obtain ⟨ys', hch, rfl, hlt⟩ := old z hz ⟨k, y, hm⟩
      exact ⟨hlt, hch, (usedElement_iff I S.inv U1 hlt).1 hz'⟩
    refine ⟨?_, fun y hy => ?_⟩
    · obtain ⟨z, hz, e⟩ := obj i hi
      obtain ⟨hlt, hch, _⟩ := used z hz e
      have L := K.later.obj z hlt
      exact ⟨z, ⟨ys, hch, hz⟩, ⟨hlt, by rw [← L.cls]; exact (h3 z hz).2⟩, by rw [← L.ref]; exact e, by rw [← L.parent]; exact (h1.members z hz).2.2.2⟩
    · obtain ⟨ys', hch, hy'⟩ := hy.listed
      have := ((K.later.obj o hx.1).children ys' hch).1
      rw [h2] at this; cases this
      exact (used y hy' (by rw [(K.later.obj y hy.isA.1).ref]; exact hy.ref)).2.2
  · obtain ⟨⟨z, hz, hu⟩, ha⟩ := S.dirty r e
    obtain ⟨hz, hs⟩ := (index_pairs h1 hc).1 hz
    obtain ⟨i, hi, e'⟩ := elem z hz
    rw [keyed z i e'] at hs
    refine ⟨fun all => ?_, i, z, hi, concerns_iff.2 hs, (objFor z hz i e').later S.unf.later hx0.1, hu⟩
    obtain ⟨⟨y, hy⟩, hall⟩ := all i hi (concerns_iff.2 hs)
    obtain ⟨ys', hch, hy'⟩ := hy.listed
    have := ((K.later.obj o hx.1).children ys' hch).1
    rw [h2] at this; cases this
    have hlt := (((I.objs o hx.1).kids ys hch).members z hz).2.1
    have L := K.later.obj z hlt
    have hz' := hall z ⟨⟨ys, hch, hz⟩, ⟨hlt, by rw [← L.cls]; exact (h3 z hz).2⟩, by rw [← L.ref]; exact e', by rw [← L.parent]; exact (h1.members z hz).2.2.2⟩
    exact hu.not_used S.inv z r (Nat.lt_of_lt_of_le hlt K1.later.len) ((usedElement_iff I S.inv U1 hlt).2 hz')

end Eno.El
