import Verif.Proofs.WorldUnfold

/-! # Objects: `_untouched` -/

namespace Eno.El

variable {α β : Type} {w w' w'' w1 : World} {o y : Nat} {E : Env}

/-- Children can be made. -/
structure NoFail (E : Env) : Prop where
  items : ∀ w o, Inv E w → IsA w o (.of .list) → ∃ rs, instItems E.ctx.heap E.depth (w.at o).ref.idx = .ok rs
  entries : ∀ w o, Inv E w → IsA w o (.of .fieldset) → ∃ rs, instEntries E.ctx.heap E.depth (w.at o).ref.idx [] = .ok rs
  elements : ∀ w o, Inv E w → IsA w o (.of .section) → (madeElements E.ctx.heap E.depth (w.at o).ref.idx []).1 = none

/-- The result of looking for something that was not touched. -/
structure Search (E : Env) (w : World) (p : Except Exc (Option Ref) × World) (used : World → Prop) (unused : World → Ref → Prop) : Prop where
  inv : Inv E p.2
  unf : Unfolded w p.2
  clean : p.1 = .ok none → used p.2
  dirty : ∀ r, p.1 = .ok (some r) → unused p.2 r ∧ Actual E.ctx.heap r
  total : NoFail E → ∃ a, p.1 = .ok a

theorem firstSome_search {f : α → Api (Option Ref)} {U : α → World → Prop} {N : α → World → Ref → Prop} : ∀ (as : List α) (w : World), Inv E w →
    (∀ a ∈ as, ∀ w1, Inv E w1 → Unfolded w w1 → Search E w1 (f a w1) (U a) (N a)) →
    (∀ a ∈ as, ∀ w1 w2, Inv E w1 → Inv E w2 → Unfolded w w1 → Unfolded w1 w2 → U a w1 → U a w2) →
    Search E w (firstSome f as w) (fun w' => ∀ a ∈ as, U a w') (fun w' r => ∃ a ∈ as, N a w' r)
  | [], w, I, _, _ => ⟨I, .refl w, fun _ a h => (by cases h), fun r h => (by cases h), fun _ => ⟨_, rfl⟩⟩
  | a :: as, w, I, hf, hU => by
    have S := hf a (by simp) w I (.refl w)
    unfold firstSome
    rw [bind_run]
    cases hm : f a w with
    | mk r w1 =>
      rw [hm] at S
      cases r with
      | error e =>
        refine ⟨S.inv, S.unf, fun h => (by cases h), fun r h => (by cases h), fun h => ?_⟩
        obtain ⟨_, e⟩ := S.total h
        cases e
      | ok b =>
        cases b with
        | some b =>
          refine ⟨S.inv, S.unf, fun h => (by cases h), fun r h => ?_, fun _ => ⟨_, rfl⟩⟩
          cases h
          obtain ⟨h1, h2⟩ := S.dirty b rfl
          exact ⟨⟨a, by simp, h1⟩, h2⟩
        | none =>
          have T := firstSome_search as w1 S.inv (fun x hx w2 I2 u => hf x (by simp [hx]) w2 I2 (S.unf.trans u))
            (fun x hx w2 w3 I2 I3 u v => hU x (by simp [hx]) w2 w3 I2 I3 (S.unf.trans u) v)
          refine ⟨T.inv, S.unf.trans T.unf, fun h => ?_, fun r h => ?_, T.total⟩
          · intro x hx
            rcases List.mem_cons.1 hx with rfl | hx
            · exact hU _ (by simp) w1 _ S.inv T.inv S.unf T.unf (S.clean rfl)
            · exact T.clean h x hx
          · obtain ⟨⟨x, hx, h1⟩, h2⟩ := T.dirty r h
            exact ⟨⟨x, by simp [hx], h1⟩, h2⟩

/-- Children that were not touched. -/
theorem untouchedIn_search (ys : List Nat) (I : Inv E w) (ha : ∀ y ∈ ys, y < w.objs.length ∧ Actual E.ctx.heap (w.at y).ref) :
    Search E w (untouchedIn ys w) (fun w' => ∀ y ∈ ys, (w'.at y).touched = true) (fun w' r => ∃ y ∈ ys, (w'.at y).touched = false ∧ r = (w'.at y).ref) := by
  refine firstSome_search (U := fun y w' => (w'.at y).touched = true) (N := fun y w' r => (w'.at y).touched = false ∧ r = (w'.at y).ref) ys w I ?_ ?_
  · intro y hy w1 I1 u
    obtain ⟨hl, hr⟩ := ha y hy
    rw [bind_ok obj_run]
    cases ht : (w1.at y).touched with
    | true => exact ⟨I1, .refl _, fun _ => ht, fun r h => (by cases h), fun _ => ⟨_, rfl⟩⟩
    | false =>
      refine ⟨I1, .refl _, fun h => (by cases h), fun r h => ?_, fun _ => ⟨_, rfl⟩⟩
      cases h
      exact ⟨⟨ht, rfl⟩, by rw [(u.later.obj y hl).ref]; exact hr⟩
  · intro y hy w1 w2 _ _ u v h
    obtain ⟨hl, hr⟩ := ha y hy
    rw [(v.obj y (Nat.lt_of_lt_of_le hl u.later.len)).1]; exact h

theorem entry_actual (I : Inv E w) (ho : o < w.objs.length) (h : (w.at o).cls = .entry ∨ (w.at o).cls = .item ∨ (w.at o).cls = .sectionElement) :
    Actual E.ctx.heap (w.at o).ref := by
  have R := (I.objs o ho).ref
  revert R
  generalize (w.at o).ref = r
  rcases h with h | h | h <;> rw [h] <;> cases r <;> simp [RefOk, Actual]

theorem made_actual (I : Inv E w) (ho : o < w.objs.length) {k : Kind} (h : (w.at o).made k = some y) : Actual E.ctx.heap (w.at y).ref := by
  obtain ⟨h1, h2⟩ := (I.objs o ho).made k y h
  rw [h2.ref]
  rcases h1 with h | h
  · exact entry_actual I ho (by simp [h])
  · have R := (I.objs o ho).ref
    rw [h] at R
    rcases R with R | ⟨R1, R2⟩
    · exact R
    · have := h2.fits
      rw [R1, show E.ctx.heap.type (.elem 0) = .document from R2] at this
      revert this; cases k <;> simp [Kind.fits]

theorem untouchedList_search (I : Inv E w) (hx : IsA w o (.of .list)) (ha : Actual E.ctx.heap (w.at o).ref) :
    Search E w (untouchedList E o w) (fun w' => Used E w' o) (fun w' r => Unused w' o r) := by
  unfold untouchedList
  rw [bind_ok obj_run]
  cases ht : (w.at o).touched with
  | false =>
    refine ⟨I, .refl w, fun h => (by cases h), fun r h => ?_, fun _ => ⟨_, rfl⟩⟩
    cases h
    exact ⟨.self ht, ha⟩
  | true =>
    rw [if_pos rfl, bind_run]
    obtain ⟨K, L⟩ := listItems_keeps I hx
    have U := listItems_unfolded (E := E) hx.1
    have hrun := listItems_run (E := E) (o := o) (w := w)
    cases hm : listItems E o w with
    | mk r w1 =>
      rw [hm] at K U hrun
      cases r with
      | error e =>
        refine ⟨K.inv, U, fun h => (by cases h), fun r h => (by cases h), fun N => ?_⟩
        obtain ⟨rs, e'⟩ := N.items w o I hx
        cases hc : (w.at o).children with
        | some ys => rw [hc] at hrun; cases hrun
        | none => rw [hc, e'] at hrun; cases hrun
      | ok ys =>
        obtain ⟨L1, L2⟩ := L ys w1 hm
        have hcls : (w1.at o).cls = .of .list := by rw [(U.later.obj o hx.1).cls]; exact hx.2
        have S := untouchedIn_search ys K.inv fun y hy => by
          obtain ⟨h1, h2, h3, h4⟩ := L2.members y hy
          rw [hcls] at h3
          exact ⟨h2, entry_actual K.inv h2 (.inr (.inl h3))⟩
        have hlen : o < w1.objs.length := Nat.lt_of_lt_of_le hx.1 U.later.len
        have hch : (((untouchedIn ys w1).2).at o).children = some ys := ((S.unf.later.obj o hlen).children ys L1).1
        have hcl : (((untouchedIn ys w1).2).at o).cls = .of .list := by rw [(S.unf.later.obj o hlen).cls]; exact hcls
        refine ⟨S.inv, U.trans S.unf, fun h => ?_, fun r h => ?_, S.total⟩
        · refine .many (.inl hcl) ?_ (fun hn => ?_) fun zs hzs => ?_
          · rw [(S.unf.obj o hlen).1, (U.obj o hx.1).1]; exact ht
          · rw [hch] at hn; cases hn
          · rw [hch] at hzs; cases hzs; exact S.clean h
        · obtain ⟨⟨y, hy, h1, rfl⟩, h2⟩ := S.dirty r h
          exact ⟨.part (.inl hcl) hch hy h1, h2⟩

theorem untouchedFieldset_search (V : EnvOk E) (I : Inv E w) (hx : IsA w o (.of .fieldset)) (ha : Actual E.ctx.heap (w.at o).ref) :
    Search E w (untouchedFieldset E o w) (fun w' => Used E w' o) (fun w' r => Unused w' o r) := by
  unfold untouchedFieldset
  rw [bind_ok obj_run]
  cases ht : (w.at o).touched with
  | false =>
    refine ⟨I, .refl w, fun h => (by cases h), fun r h => ?_, fun _ => ⟨_, rfl⟩⟩
    cases h
    exact ⟨.self ht, ha⟩
  | true =>
    rw [if_pos rfl, bind_run]
    obtain ⟨K, L⟩ := fieldsetEntries_keeps V I hx
    have U := fieldsetEntries_unfolded V I hx
    have hrun := fieldsetEntries_run (E := E) (o := o) (w := w)
    cases hm : fieldsetEntries E o w with
    | mk r w1 =>
      rw [hm] at K U hrun
      cases r with
      | error e =>
        refine ⟨K.inv, U, fun h => (by cases h), fun r h => (by cases h), fun N => ?_⟩
        obtain ⟨rs, e'⟩ := N.entries w o I hx
        cases hc : (w.at o).children with
        | some ys => rw [hc] at hrun; cases hrun
        | none => rw [hc, e'] at hrun; cases hrun
      | ok ys =>
        obtain ⟨L1, L2⟩ := L ys w1 hm
        have hcls : (w1.at o).cls = .of .fieldset := by rw [(U.later.obj o hx.1).cls]; exact hx.2
        have S := untouchedIn_search ys K.inv fun y hy => by
          obtain ⟨h1, h2, h3, h4⟩ := L2.members y hy
          rw [hcls] at h3
          exact ⟨h2, entry_actual K.inv h2 (.inl h3)⟩
        have hlen : o < w1.objs.length := Nat.lt_of_lt_of_le hx.1 U.later.len
        have hch : (((untouchedIn ys w1).2).at o).children = some ys := ((S.unf.later.obj o hlen).children ys L1).1
        have hcl : (((untouchedIn ys w1).2).at o).cls = .of .fieldset := by rw [(S.unf.later.obj o hlen).cls]; exact hcls
        refine ⟨S.inv, U.trans S.unf, fun h => ?_, fun r h => ?_, S.total⟩
        · refine .many (.inr hcl) ?_ (fun hn => ?_) fun zs hzs => ?_
          · rw [(S.unf.obj o hlen).1, (U.obj o hx.1).1]; exact ht
          · rw [hch] at hn; cases hn
          · rw [hch] at hzs; cases hzs; exact S.clean h
        · obtain ⟨⟨y, hy, h1, rfl⟩, h2⟩ := S.dirty r h
          exact ⟨.part (.inr hcl) hch hy h1, h2⟩

/-- A section element of which something was made is treated like that. -/
theorem untouchedElement_search (V : EnvOk E) {deeper : Nat → Api (Option Ref)} (I : Inv E w) (hx : IsA w o .sectionElement)
    (hd : ∀ y, (w.at o).made .section = some y → Search E w (deeper y w) (fun w' => Used E w' y) (fun w' r => Unused w' y r)) :
    Search E w (untouchedElement E deeper o w) (fun w' => UsedElement E w' o) (fun w' r => UnusedElement w' o r) := by
  have O := I.objs o hx.1
  have ha := entry_actual I hx.1 (.inr (.inr hx.2))
  unfold untouchedElement
  rw [bind_ok obj_run]
  cases hy : (w.at o).yielded with
  | none =>
    refine ⟨I, .refl w, fun h => (by cases h), fun r h => ?_, fun _ => ⟨_, rfl⟩⟩
    cases h
    have hnone : ∀ k, (w.at o).made k = none := by
      intro k
      cases hk : (w.at o).made k with
      | none => rfl
      | some y =>
        have := (O.yielded k).2 (by rw [hk]; rfl)
        rw [hy] at this; cases this
    exact ⟨.self hnone, ha⟩
  | some k =>
    obtain ⟨y, hk⟩ := Option.isSome_iff_exists.1 ((O.yielded k).1 hy)
    have M := (O.made k y hk).2
    have hother : ∀ k', k' ≠ k → (w.at o).made k' = none := by
      intro k' hne
      cases hk' : (w.at o).made k' with
      | none => rfl
      | some y' => exact absurd (made_unique I hx.1 hk' hk).1 hne
    have ha' := made_actual I hx.1 hk
    rw [if_neg (by simp), bind_ok obj_run, bind_ok obj_run]
    -- what was made of it stays the same
    have lift : ∀ {p : Except Exc (Option Ref) × World}, Search E w p (fun w' => Used E w' y) (fun w' r => Unused w' y r) →
        Search E w p (fun w' => UsedElement E w' o) (fun w' r => UnusedElement w' o r) := by
      intro p S
      have hm : (p.2.at o).made k = some y := by rw [(S.unf.obj o hx.1).2.1]; exact hk
      exact ⟨S.inv, S.unf, fun h => ⟨k, y, hm, S.clean h⟩, fun r h => ⟨.made hm (S.dirty r h).1, (S.dirty r h).2⟩, S.total⟩
    cases k with
    | empty =>
      apply lift
      rw [hk, hother .field (by simp), hother .fieldset (by simp), hother .list (by simp), hother .section (by simp)]
      cases ht : (w.at y).touched with
      | false =>
        rw [if_pos (by simpa using ht)]
        refine ⟨I, .refl w, fun h => (by cases h), fun r h => ?_, fun _ => ⟨_, rfl⟩⟩
        cases h
        exact ⟨by rw [← M.ref]; exact .self ht, ha⟩
      | true =>
        rw [if_neg (by simpa using ht), if_neg (by simp)]
        exact ⟨I, .refl w, fun h => .leaf (.inl M.cls) ht, fun r h => (by cases h), fun _ => ⟨_, rfl⟩⟩
    | field =>
      apply lift
      rw [hk, hother .empty (by simp), hother .fieldset (by simp), hother .list (by simp), hother .section (by simp), if_neg (by simp)]
      cases ht : (w.at y).touched with
      | false =>
        rw [if_pos (by simpa using ht)]
        refine ⟨I, .refl w, fun h => (by cases h), fun r h => ?_, fun _ => ⟨_, rfl⟩⟩
        cases h
        exact ⟨by rw [← M.ref]; exact .self ht, ha⟩
      | true =>
        rw [if_neg (by simpa using ht)]
        exact ⟨I, .refl w, fun h => .leaf (.inr M.cls) ht, fun r h => (by cases h), fun _ => ⟨_, rfl⟩⟩
    | fieldset =>
      apply lift
      rw [hk, hother .empty (by simp), hother .field (by simp), if_neg (by simp), if_neg (by simp)]
      exact untouchedFieldset_search V I ⟨M.known, M.cls⟩ ha'
    | list =>
      apply lift
      rw [hk, hother .empty (by simp), hother .field (by simp), hother .fieldset (by simp), if_neg (by simp), if_neg (by simp)]
      exact untouchedList_search I ⟨M.known, M.cls⟩ ha'
    | «section» =>
      apply lift
      rw [hk, hother .empty (by simp), hother .field (by simp), hother .fieldset (by simp), hother .list (by simp), if_neg (by simp), if_neg (by simp)]
      exact hd y hk

/-- What was made has a number below. -/
def Bounded (N : Nat) (w : World) : Prop := ∀ q k y, (w.at q).made k = some y → y < N

theorem Bounded.unfolded {N : Nat} (B : Bounded N w) (U : Unfolded w w') : Bounded N w' := by
  intro q k y h
  by_cases hq : q < w.objs.length
  · rw [(U.obj q hq).2.1] at h; exact B q k y h
  · rw [(U.fresh q (by omega)).2] at h; cases h

theorem Inv.bounded (I : Inv E w) : Bounded w.objs.length w := by
  intro q k y h
  by_cases hq : q < w.objs.length
  · exact ((I.objs q hq).made k y h).2.known
  · rw [at_out (by omega)] at h; cases h

theorem untouchedSection_search (V : EnvOk E) {N : Nat} : ∀ (n o : Nat) (w : World), Inv E w → Bounded N w → IsA w o (.of .section) → Actual E.ctx.heap (w.at o).ref →
    o < N → N < o + n → Search E w (untouchedSection E n o w) (fun w' => Used E w' o) (fun w' r => Unused w' o r)
  | 0, o, w, _, _, _, _, h1, h2 => by omega
  | n + 1, o, w, I, B, hx, ha, hN, hn => by
    unfold untouchedSection
    rw [bind_ok obj_run]
    cases ht : (w.at o).touched with
    | false =>
      refine ⟨I, .refl w, fun h => (by cases h), fun r h => ?_, fun _ => ⟨_, rfl⟩⟩
      cases h
      exact ⟨.self ht, ha⟩
    | true =>
      rw [if_pos rfl, bind_run]
      obtain ⟨K, ys, L1, L2, L3⟩ := sectionElements_keeps V I hx
      have U := sectionElements_unfolded (E := E) hx.1
      have hrun := sectionElements_run (E := E) (o := o) (w := w)
      cases hm : sectionElements E o w with
      | mk r w1 =>
        rw [hm] at K U hrun L1 L2
        cases r with
        | error e =>
          refine ⟨K.inv, U, fun h => (by cases h), fun r h => (by cases h), fun N => ?_⟩
          have e' := N.elements w o I hx
          cases hc : (w.at o).children with
          | some ys => rw [hc] at hrun; cases hrun
          | none =>
            rw [hc] at hrun
            dsimp only at hrun
            rw [e'] at hrun; cases hrun
        | ok ys' =>
          have e := L3 ys' w1 hm
          subst e
          have hcls : (w1.at o).cls = .of .section := by rw [(U.later.obj o hx.1).cls]; exact hx.2
          have hmem : ∀ y ∈ ys', o < y ∧ IsA w1 y .sectionElement := by
            intro y hy
            obtain ⟨h1, h2, h3, h4⟩ := L2.members y hy
            rw [hcls] at h3
            exact ⟨h1, h2, h3⟩
          have S := firstSome_search (f := untouchedElement E (untouchedSection E n)) (U := fun y w' => UsedElement E w' y) (N := fun y w' r => UnusedElement w' y r) ys' w1 K.inv
            (by
              intro y hy w2 I2 u
              obtain ⟨h1, h2⟩ := hmem y hy
              have h3 := h2.later u.later
              refine untouchedElement_search V I2 h3 fun z hz => ?_
              have M := ((I2.objs y h3.1).made _ z hz).2
              have B2 := (B.unfolded U).unfolded u
              have hzN := B2 y _ z hz
              have := M.lt
              exact untouchedSection_search V n z w2 I2 B2 ⟨M.known, M.cls⟩ (made_actual I2 h3.1 hz) hzN (by omega))
            (by
              intro y hy w2 w3 I2 I3 u v h
              obtain ⟨h1, h2⟩ := hmem y hy
              exact (usedElement_iff I2 I3 v (h2.later u.later).1).2 h)
          dsimp only at L1
          have hlen : o < w1.objs.length := Nat.lt_of_lt_of_le hx.1 U.later.len
          change Search E w (firstSome (untouchedElement E (untouchedSection E n)) ys' w1) _ _
          generalize firstSome (untouchedElement E (untouchedSection E n)) ys' w1 = p at S ⊢
          have hch : (p.2.at o).children = some ys' := ((S.unf.later.obj o hlen).children ys' L1).1
          have hcl : (p.2.at o).cls = .of .section := by rw [(S.unf.later.obj o hlen).cls]; exact hcls
          refine ⟨S.inv, U.trans S.unf, fun h => ?_, fun r h => ?_, S.total⟩
          · have hu := S.clean h
            have hu' : ∀ y, ∃ k z, y ∈ ys' → (p.2.at y).made k = some z ∧ Used E p.2 z := by
              intro y
              by_cases hy : y ∈ ys'
              · obtain ⟨k, z, h1, h2⟩ := hu y hy
                exact ⟨k, z, fun _ => ⟨h1, h2⟩⟩
              · exact ⟨.empty, 0, fun h => absurd h hy⟩
            refine .section hcl ?_ (fun hn => ?_) (fun y => (hu' y).choose) (fun y => (hu' y).choose_spec.choose) ?_ ?_
            · rw [(S.unf.obj o hlen).1, (U.obj o hx.1).1]; exact ht
            · rw [hch] at hn; cases hn
            · intro zs hzs y hy
              rw [hch] at hzs; cases hzs
              exact ((hu' y).choose_spec.choose_spec hy).1
            · intro zs hzs y hy
              rw [hch] at hzs; cases hzs
              exact ((hu' y).choose_spec.choose_spec hy).2
          · obtain ⟨⟨y, hy, h1⟩, h2⟩ := S.dirty r h
            exact ⟨.inside hcl hch hy h1, h2⟩

/-! ## What is not touched is not used -/

mutual

theorem Unused.not_used (I : Inv E w) : ∀ (o : Nat) (r : Ref), Unused w o r → o < w.objs.length → ¬ Used E w o
  | _, _, .self h, ho, u => by
    cases u with
    | leaf _ ht => rw [h] at ht; cases ht
    | many _ ht => rw [h] at ht; cases ht
    | «section» _ ht => rw [h] at ht; cases ht
  | _, _, .part hc hch hy h, ho, u => by
    cases u with
    | leaf hc' _ => rcases hc with e | e <;> rw [e] at hc' <;> simp at hc'
    | many _ _ _ h4 => rw [h4 _ hch _ hy] at h; cases h
    | «section» hc' => rcases hc with e | e <;> rw [e] at hc' <;> simp at hc'
  | _, _, .inside (y := y) hc hch hy h, ho, u => by
    have K := (I.objs _ ho).kids _ hch
    refine UnusedElement.not_used I _ _ h (K.members _ hy).2.1 ?_
    cases u with
    | leaf hc' _ => rw [hc] at hc'; simp at hc'
    | many hc' => rw [hc] at hc'; simp at hc'
    | «section» _ _ _ kind made h4 h5 => exact ⟨_, _, h4 _ hch _ hy, h5 _ hch _ hy⟩

theorem UnusedElement.not_used (I : Inv E w) : ∀ (o : Nat) (r : Ref), UnusedElement w o r → o < w.objs.length → ¬ UsedElement E w o
  | _, _, .self h, _, ⟨k, y, hk, _⟩ => by rw [h k] at hk; cases hk
  | _, _, .made hk' h, ho, ⟨k, y, hk, u⟩ => by
    obtain ⟨rfl, rfl⟩ := made_unique I ho hk' hk
    exact Unused.not_used I _ _ h ((I.objs _ ho).made _ _ hk).2.known u

end

end Eno.El
