import Verif.Proofs.WorldKids

/-! # Objects: making children, and looking for what was not touched -/

namespace Eno.El

variable {α β : Type} {w w' w'' w1 : World} {o y : Nat} {E : Env}

/-- Nothing happened but that children were made. -/
structure Unfolded (w w' : World) : Prop where
  later : Later w w'
  obj : ∀ o, o < w.objs.length → (w'.at o).touched = (w.at o).touched ∧ (w'.at o).made = (w.at o).made ∧ (w'.at o).yielded = (w.at o).yielded ∧
    (w'.at o).required = (w.at o).required
  kids : ∀ o, o < w.objs.length → (w.at o).children = none → ∀ ys, (w'.at o).children = some ys → ∀ y ∈ ys, w.objs.length ≤ y
  fresh : ∀ o, w.objs.length ≤ o → (w'.at o).touched = false ∧ (w'.at o).made = fun _ => none

theorem Unfolded.refl (w : World) : Unfolded w w where
  later := .refl w
  obj _ _ := ⟨rfl, rfl, rfl, rfl⟩
  kids o _ h ys hy := by rw [h] at hy; cases hy
  fresh o h := by rw [at_out h]; exact ⟨rfl, rfl⟩

theorem Unfolded.trans (a : Unfolded w w') (b : Unfolded w' w'') : Unfolded w w'' where
  later := a.later.trans b.later
  obj o ho := by
    obtain ⟨h1, h2, h3, h4⟩ := a.obj o ho
    obtain ⟨g1, g2, g3, g4⟩ := b.obj o (Nat.lt_of_lt_of_le ho a.later.len)
    exact ⟨g1.trans h1, g2.trans h2, g3.trans h3, g4.trans h4⟩
  kids o ho hn ys hys y hy := by
    have hl := a.later.len
    cases hc : (w'.at o).children with
    | none => exact Nat.le_trans hl (b.kids o (by omega) hc ys hys y hy)
    | some zs =>
      have := (b.later.obj o (by omega)).children zs hc
      rw [this.1] at hys
      cases hys
      exact a.kids o ho hn _ hc y hy
  fresh o ho := by
    by_cases h : o < w'.objs.length
    · obtain ⟨g1, g2, _, _⟩ := b.obj o h
      obtain ⟨h1, h2⟩ := a.fresh o ho
      exact ⟨g1.trans h1, g2.trans h2⟩
    · exact b.fresh o (by omega)

theorem unfolded_withKids {xs : List Obj} {ys : List Nat} {index : List (Str × List Nat)} (ho : o < w.objs.length) (hc : (w.at o).children = none)
    (hx : ∀ x ∈ xs, x.touched = false ∧ x.made = fun _ => none) (hy : ∀ y ∈ ys, w.objs.length ≤ y) : Unfolded w (withKids o xs ys index w) where
  later := later_withKids ho hc
  obj q hq := by
    by_cases e : q = o
    · subst e; rw [at_withKids_self hq]; exact ⟨rfl, rfl, rfl, rfl⟩
    · rw [at_withKids_lt hq e]; exact ⟨rfl, rfl, rfl, rfl⟩
  kids q hq hn ys' h := by
    by_cases e : q = o
    · subst e; rw [at_withKids_self hq] at h; cases h; exact hy
    · rw [at_withKids_lt hq e, hn] at h; cases h
  fresh q hq := by
    by_cases h : q < w.objs.length + xs.length
    · obtain ⟨k, rfl⟩ : ∃ k, q = w.objs.length + k := ⟨q - w.objs.length, by omega⟩
      rw [at_withKids_new ho (by omega)]
      exact hx _ (List.getElem_mem _)
    · rw [at_out (by rw [len_withKids]; omega)]; exact ⟨rfl, rfl⟩

theorem listItems_unfolded (ho : o < w.objs.length) : Unfolded w (listItems E o w).2 := by
  rw [listItems_run]
  cases hc : (w.at o).children with
  | some ys => exact .refl w
  | none =>
    dsimp only
    cases hi : instItems E.ctx.heap E.depth (w.at o).ref.idx with
    | error e => exact .refl w
    | ok rs =>
      have h : Unfolded w (withKids o (rs.map fun r => { cls := .item, ref := r, parent := some o }) (List.range' w.objs.length rs.length) (w.at o).index w) := by
        refine unfolded_withKids ho hc ?_ fun y hy => (mem_new hy).1
        intro x hx
        obtain ⟨r, _, rfl⟩ := List.mem_map.1 hx
        exact ⟨rfl, rfl⟩
      have e : withKids o (rs.map fun r => { cls := .item, ref := r, parent := some o }) (List.range' w.objs.length rs.length) (w.at o).index w =
          (assign o (fun x => { x with children := some (List.range' w.objs.length rs.length) })
            (create (rs.map fun r => { cls := .item, ref := r, parent := some o }) w).2).2 := by
        unfold withKids assign
        dsimp only
        congr 1
        apply List.ext_getElem?
        intro i
        rw [List.getElem?_modify, List.getElem?_modify]
        by_cases e : o = i
        · subst e
          have : ((create (rs.map fun r => { cls := .item, ref := r, parent := some o }) w).2.objs[o]?) = some (w.at o) := by
            simp only [create]
            rw [List.getElem?_append_left ho, World.at, List.getD_eq_getElem?_getD, List.getElem?_eq_getElem ho]; rfl
          rw [this]
          simp
        · simp [e]
      rw [← e]
      exact h

theorem fieldsetEntries_unfolded (V : EnvOk E) (I : Inv E w) (hx : IsA w o (.of .fieldset)) : Unfolded w (fieldsetEntries E o w).2 := by
  have K := (fieldsetEntries_keeps V I hx).2
  rw [fieldsetEntries_run] at K ⊢
  cases hc : (w.at o).children with
  | some ys => exact .refl w
  | none =>
    rw [hc] at K
    dsimp only at K ⊢
    cases hi : instEntries E.ctx.heap E.depth (w.at o).ref.idx [] with
    | error e => exact .refl w
    | ok p =>
      rw [hi] at K
      obtain ⟨made, listed⟩ := p
      obtain ⟨-, K⟩ := K _ _ rfl
      refine unfolded_withKids hx.1 hc ?_ fun y hy => ?_
      · intro x hx
        obtain ⟨r, _, rfl⟩ := List.mem_map.1 hx
        exact ⟨rfl, rfl⟩
      · have h0 := (K.members y hy).1
        obtain ⟨r, _, rfl⟩ := List.mem_map.1 hy
        rw [List.getD_eq_getElem?_getD] at h0 ⊢
        cases hq : (List.range' w.objs.length made.length)[made.idxOf r]? with
        | none => rw [hq] at h0; simp at h0
        | some z =>
          have := List.mem_of_getElem? hq
          exact (mem_new this).1

theorem sectionElements_unfolded (ho : o < w.objs.length) : Unfolded w (sectionElements E o w).2 := by
  rw [sectionElements_run]
  cases hc : (w.at o).children with
  | some ys => exact .refl w
  | none =>
    refine unfolded_withKids ho hc ?_ fun y hy => (mem_new hy).1
    intro x hx
    obtain ⟨r, _, rfl⟩ := List.mem_map.1 hx
    exact ⟨rfl, rfl⟩

/-! ## `Used` does not depend on whether children have been made -/

theorem ChildRefs.hollow {x : Obj} (hx : x.cls = .of .section ∨ x.cls = .of .list ∨ x.cls = .of .fieldset) : ChildRefs E x [] ↔ Hollow E x := by
  unfold ChildRefs Hollow
  rcases hx with h | h | h <;> rw [h]
  · simp

theorem ChildRefs.unique {x : Obj} {as bs : List Ref} (h : ChildRefs E x as) (h' : ChildRefs E x bs) : as = bs := by
  unfold ChildRefs at h h'
  cases hx : x.cls with
  | of k =>
    rw [hx] at h h'
    cases k with
    | «section» => exact h.trans h'.symm
    | list => exact Except.ok.inj (h.symm.trans h')
    | fieldset =>
      obtain ⟨a, h⟩ := h
      obtain ⟨b, h'⟩ := h'
      exact (Prod.mk.inj (Except.ok.inj (h.symm.trans h'))).2
    | _ => exact h.elim
  | _ => rw [hx] at h; exact h.elim

theorem Hollow.later {x x' : Obj} (h1 : x'.cls = x.cls) (h2 : x'.ref = x.ref) : Hollow E x' ↔ Hollow E x := by
  unfold Hollow; rw [h1, h2]

theorem hollow_kids {ys : List Nat} (I : Inv E w) (ho : o < w.objs.length) (hx : (w.at o).cls = .of .section ∨ (w.at o).cls = .of .list ∨ (w.at o).cls = .of .fieldset)
    (hc : (w.at o).children = some ys) : Hollow E (w.at o) ↔ ys = [] := by
  have K := (I.objs o ho).kids ys hc
  rw [← ChildRefs.hollow hx]
  constructor
  · intro h
    have := K.refs.unique h
    simpa using this
  · rintro rfl
    exact K.refs

theorem used_unfolded (I : Inv E w) (I' : Inv E w') (U : Unfolded w w') (h : Used E w o) : o < w.objs.length → Used E w' o := by
  induction h with
  | @leaf o h1 h2 =>
    intro ho
    obtain ⟨g1, -⟩ := U.obj o ho
    have L := U.later.obj o ho
    exact .leaf (by rw [L.cls]; exact h1) (by rw [g1]; exact h2)
  | @many o h1 h2 h3 h4 =>
    intro ho
    obtain ⟨g1, -⟩ := U.obj o ho
    have L := U.later.obj o ho
    refine .many (by rw [L.cls]; exact h1) (by rw [g1]; exact h2) ?_ ?_
    · intro hn
      cases hc : (w.at o).children with
      | none => exact (Hollow.later L.cls L.ref).2 (h3 hc)
      | some ys => rw [(L.children ys hc).1] at hn; cases hn
    · intro ys hys y hy
      cases hc : (w.at o).children with
      | none =>
        have := (hollow_kids I' (Nat.lt_of_lt_of_le ho U.later.len) (by rw [L.cls]; exact .inr h1) hys).1 ((Hollow.later L.cls L.ref).2 (h3 hc))
        rw [this] at hy; cases hy
      | some zs =>
        rw [(L.children zs hc).1] at hys
        cases hys
        rw [(U.obj y (((I.objs o ho).kids _ hc).members y hy).2.1).1]
        exact h4 _ hc y hy
  | @«section» o h1 h2 h3 kind made h4 h5 ih =>
    intro ho
    obtain ⟨g1, -⟩ := U.obj o ho
    have L := U.later.obj o ho
    have key : ∀ ys, (w'.at o).children = some ys → ∀ y ∈ ys, ∃ zs, (w.at o).children = some zs ∧ y ∈ zs := by
      intro ys hys y hy
      cases hc : (w.at o).children with
      | none =>
        have := (hollow_kids I' (Nat.lt_of_lt_of_le ho U.later.len) (by rw [L.cls]; exact .inl h1) hys).1 ((Hollow.later L.cls L.ref).2 (h3 hc))
        rw [this] at hy; cases hy
      | some zs =>
        rw [(L.children zs hc).1] at hys
        cases hys
        exact ⟨_, rfl, hy⟩
    refine .section (by rw [L.cls]; exact h1) (by rw [g1]; exact h2) ?_ kind made ?_ ?_
    · intro hn
      cases hc : (w.at o).children with
      | none => exact (Hollow.later L.cls L.ref).2 (h3 hc)
      | some ys => rw [(L.children ys hc).1] at hn; cases hn
    · intro ys hys y hy
      obtain ⟨zs, hc, hz⟩ := key ys hys y hy
      have hyl := (((I.objs o ho).kids zs hc).members y hz).2.1
      rw [(U.obj y hyl).2.1]
      exact h4 zs hc y hz
    · intro ys hys y hy
      obtain ⟨zs, hc, hz⟩ := key ys hys y hy
      have hyl := (((I.objs o ho).kids zs hc).members y hz).2.1
      exact ih zs hc y hz ((I.objs y hyl).made _ _ (h4 zs hc y hz)).2.known

theorem unfolded_used (I : Inv E w) (I' : Inv E w') (U : Unfolded w w') (h : Used E w' o) : o < w.objs.length → Used E w o := by
  induction h with
  | @leaf o h1 h2 =>
    intro ho
    obtain ⟨g1, -⟩ := U.obj o ho
    have L := U.later.obj o ho
    exact .leaf (by rw [← L.cls]; exact h1) (by rw [← g1]; exact h2)
  | @many o h1 h2 h3 h4 =>
    intro ho
    obtain ⟨g1, -⟩ := U.obj o ho
    have L := U.later.obj o ho
    rw [L.cls] at h1
    refine .many h1 (by rw [← g1]; exact h2) ?_ ?_
    · intro hn
      cases hc : (w'.at o).children with
      | none => exact (Hollow.later L.cls L.ref).1 (h3 hc)
      | some ys =>
        refine (Hollow.later L.cls L.ref).1 ((hollow_kids I' (Nat.lt_of_lt_of_le ho U.later.len) (by rw [L.cls]; exact .inr h1) hc).2 ?_)
        cases ys with
        | nil => rfl
        | cons y ys =>
          have h5 := h4 _ hc y (by simp)
          rw [(U.fresh y (U.kids o ho hn _ hc y (by simp))).1] at h5
          cases h5
    · intro ys hys y hy
      rw [← (U.obj y (((I.objs o ho).kids ys hys).members y hy).2.1).1]
      exact h4 ys (L.children ys hys).1 y hy
  | @«section» o h1 h2 h3 kind made h4 h5 ih =>
    intro ho
    obtain ⟨g1, -⟩ := U.obj o ho
    have L := U.later.obj o ho
    rw [L.cls] at h1
    refine .section h1 (by rw [← g1]; exact h2) ?_ kind made ?_ ?_
    · intro hn
      cases hc : (w'.at o).children with
      | none => exact (Hollow.later L.cls L.ref).1 (h3 hc)
      | some ys =>
        refine (Hollow.later L.cls L.ref).1 ((hollow_kids I' (Nat.lt_of_lt_of_le ho U.later.len) (by rw [L.cls]; exact .inl h1) hc).2 ?_)
        cases ys with
        | nil => rfl
        | cons y ys =>
          have h5 := h4 _ hc y (by simp)
          rw [(U.fresh y (U.kids o ho hn _ hc y (by simp))).2] at h5
          cases h5
    · intro ys hys y hy
      have hyl := (((I.objs o ho).kids ys hys).members y hy).2.1
      rw [← (U.obj y hyl).2.1]
      exact h4 ys (L.children ys hys).1 y hy
    · intro ys hys y hy
      have hyl := (((I.objs o ho).kids ys hys).members y hy).2.1
      refine ih ys (L.children ys hys).1 y hy ?_
      have := h4 ys (L.children ys hys).1 y hy
      rw [(U.obj y hyl).2.1] at this
      exact ((I.objs y hyl).made _ _ this).2.known

theorem used_iff (I : Inv E w) (I' : Inv E w') (U : Unfolded w w') (ho : o < w.objs.length) : Used E w' o ↔ Used E w o :=
  ⟨fun h => unfolded_used I I' U h ho, fun h => used_unfolded I I' U h ho⟩

theorem usedElement_iff (I : Inv E w) (I' : Inv E w') (U : Unfolded w w') (ho : o < w.objs.length) : UsedElement E w' o ↔ UsedElement E w o := by
  unfold UsedElement
  rw [(U.obj o ho).2.1]
  constructor
  · rintro ⟨k, y, h, u⟩
    exact ⟨k, y, h, unfolded_used I I' U u ((I.objs o ho).made k y h).2.known⟩
  · rintro ⟨k, y, h, u⟩
    exact ⟨k, y, h, used_unfolded I I' U u ((I.objs o ho).made k y h).2.known⟩

/-- One made of the element, so all of it. -/
theorem made_unique (I : Inv E w) (ho : o < w.objs.length) {k k' : Kind} {y' : Nat} (h : (w.at o).made k = some y) (h' : (w.at o).made k' = some y') : k = k' ∧ y = y' := by
  have O := I.objs o ho
  have h1 := (O.yielded k).2 (by rw [h]; rfl)
  have h2 := (O.yielded k').2 (by rw [h']; rfl)
  rw [h1] at h2
  cases h2
  rw [h] at h'
  cases h'
  exact ⟨rfl, rfl⟩

end Eno.El
